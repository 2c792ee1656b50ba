{"id": "C01", "title": "Heap sort sorts", "statement": "sequoia::sort(begin,end,comp,proj) terminates, leaves a permutation of the original elements in [begin,end), touches nothing outside it, and the result is ordered: no later element compares less than an earlier one. This remains true when the comparator answers arbitrarily between elements of equal key.", "quantifier": "every length, every content, every strict weak order, every tie-breaking behaviour of the comparator", "why_tests_cant": "the space of inputs and comparators is infinite; a heap bug may need a particular shape of tree", "anchors": ["Source/sequoia/Algorithms/Algorithms.hpp: sort, make_heap, bubble_up, bubble_down"]}
{"id": "C02", "title": "Merge sort is a stable sort", "statement": "sequoia::stable_sort(first,last,comp,proj) yields the stable sorting of the input: sorted, a permutation, and elements which compare equivalent keep their input order.", "quantifier": "every sequence and every strict weak order", "why_tests_cant": "stability must hold for all arrangements of equivalent elements", "anchors": ["Source/sequoia/Algorithms/Algorithms.hpp: stable_sort"]}
{"id": "C03", "title": "cluster groups equal elements", "statement": "sequoia::cluster permutes the range so that all elements equal (under the given equivalence) to one another are adjacent, without needing an ordering.", "quantifier": "every sequence and every equivalence relation", "why_tests_cant": "swapping scatters the later classes; only an induction over all inputs shows each class ends up contiguous", "anchors": ["Source/sequoia/Algorithms/Algorithms.hpp: cluster"]}
{"id": "C04", "title": "static_stack is a bounded LIFO stack", "statement": "For any history of push/pop/top/size/empty that never pops or reads an empty stack, static_stack<T,N> behaves as a list with push/pop at the same end; push throws exactly when N elements are held and then leaves the stack unchanged; operator== compares the logical contents only.", "quantifier": "every capacity, every history of operations", "why_tests_cant": "histories are unbounded", "anchors": ["Source/sequoia/Core/DataStructures/StaticStack.hpp: static_stack"]}
{"id": "C05", "title": "static_queue is a bounded FIFO queue", "statement": "For any history of operations (any amount of wrap-around) static_queue<T,N> behaves as a FIFO list: front is the oldest element, back the newest, size is the number of elements, push throws exactly when full; operator== is equality of the logical contents regardless of where they sit in the ring.", "quantifier": "every capacity including 0, every history", "why_tests_cant": "wrap-around states depend on the whole history", "anchors": ["Source/sequoia/Core/DataStructures/StaticQueue.hpp: static_queue"]}
{"id": "C06", "title": "static_priority_queue serves a maximal element", "statement": "top() of a non-empty static_priority_queue is an element of the queue than which no other held element is greater; pop removes exactly top; push adds exactly its argument; the initializer_list constructor holds exactly the listed elements; queues are equal if and only if they hold the same elements.", "quantifier": "every capacity, comparator, initial list and history", "why_tests_cant": "requires the heap invariant for all histories", "anchors": ["Source/sequoia/Core/DataStructures/StaticPriorityQueue.hpp: static_priority_queue, make_Q"]}
{"id": "C07", "title": "monotonic_sequence is always monotonic", "statement": "A monotonic_sequence built and changed only through its checked interface is monotonic at all times: for adjacent elements the comparator never holds between earlier and later. Operations which would break this throw and leave the sequence as it was; operations that would not break it do not throw.", "quantifier": "every history of construct/push_back/insert/erase/mutate/clear", "why_tests_cant": "all histories and all mutation functions", "anchors": ["Source/sequoia/Maths/Sequences/MonotonicSequence.hpp: monotonic_sequence_base"]}
{"id": "C08", "title": "Contiguous partitioned storage behaves as a list of lists", "statement": "Every mutation of partitioned_sequence (add/insert/erase/swap of partitions, push back/insert/erase of elements) has, on the observable partitions, precisely the effect of the same operation on a list of lists; other partitions are untouched.", "quantifier": "every sequence of partitions and every history of operations with in-range indices", "why_tests_cant": "offset bookkeeping depends on all previous operations", "anchors": ["Source/sequoia/Core/DataStructures/PartitionedData.hpp: partitioned_sequence_base"]}
{"id": "C09", "title": "The two partitioned storages are interchangeable", "statement": "bucketed_sequence and partitioned_sequence, put through the same history of operations, expose the same partitions and fail with exceptions on the same calls.", "quantifier": "every history, including out-of-range arguments", "why_tests_cant": "differences appear only for particular arguments after particular histories", "anchors": ["Source/sequoia/Core/DataStructures/PartitionedData.hpp: bucketed_sequence, partitioned_sequence_base"]}
{"id": "C10", "title": "Embedded graphs: complementary indices always agree", "statement": "In an embedded graph, if the k-th edge of node n has target t and complementary index c then t has a c-th edge whose target is n and whose complementary index is k, the two are different half-edges and carry equal weights. This holds after every history of add/insert/erase/swap of nodes, join, insert_join, erase_edge, set_edge_weight.", "quantifier": "every graph, every history of mutations, every position", "why_tests_cant": "index fix-ups depend on positions of loops and multi-edges; the space is unbounded", "anchors": ["Source/sequoia/Maths/Graph/Connectivity.hpp: join, insert_join, erase_edge, erase_node, insert_node, swap_nodes, modify_comp_indices"]}
{"id": "C11", "title": "Undirected graphs stay reciprocal", "statement": "In an undirected graph, for all distinct nodes i,j and each weight w, node i has as many edges to j of weight w as j has to i, and the number of loops at i of weight w is even, after every history of mutations.", "quantifier": "every graph and history of mutations", "why_tests_cant": "as above", "anchors": ["Source/sequoia/Maths/Graph/Connectivity.hpp: join, erase_edge, erase_node, insert_node, swap_nodes, set_edge_weight"]}
{"id": "C12", "title": "Edges never dangle", "statement": "For every flavour of graph, after every history of mutations, the target of each edge is an existing node and the number of node weights equals the number of nodes.", "quantifier": "every history of mutations", "why_tests_cant": "histories are unbounded", "anchors": ["Source/sequoia/Maths/Graph/Connectivity.hpp", "Source/sequoia/Maths/Graph/GraphPrimitive.hpp"]}
{"id": "C13", "title": "size() counts edges", "statement": "size() of a directed graph is the number of edges; for undirected flavours it is the number of edges each represented by two halves, so that the sum over nodes of the degree is exactly 2*size(). join raises size by one; erase_edge lowers it by one.", "quantifier": "every reachable graph", "why_tests_cant": "must hold for every history", "anchors": ["Source/sequoia/Maths/Graph/Connectivity.hpp: size"]}
{"id": "C14", "title": "erase_node removes exactly the node and its incident edges", "statement": "After erase_node(n) the graph is the subgraph induced on the other nodes, with indices above n lowered by one, remaining edges in their original order and with their weights; node weights likewise.", "quantifier": "every graph and node", "why_tests_cant": "all graphs", "anchors": ["Source/sequoia/Maths/Graph/Connectivity.hpp: erase_node", "Source/sequoia/Maths/Graph/GraphPrimitive.hpp: erase_node"]}
{"id": "C15", "title": "insert_node only relabels", "statement": "insert_node(n) adds an isolated node at index n; every other node, edge and weight is unchanged up to raising indices >= n by one. erase_node(n) afterwards restores the original graph.", "quantifier": "every graph and position", "why_tests_cant": "all graphs", "anchors": ["Source/sequoia/Maths/Graph/Connectivity.hpp: insert_node", "Source/sequoia/Maths/Graph/GraphPrimitive.hpp: insert_node"]}
{"id": "C16", "title": "swap_nodes is an isomorphism", "statement": "swap_nodes(i,j) yields the graph relabelled by the transposition (i j): the edges of node n become, in order, the edges of (i j)n with targets relabelled; doing it twice restores the graph.", "quantifier": "every reachable graph of every flavour, all i,j", "why_tests_cant": "the undirected flavours only repair the neighbours of i and j, so correctness rests on reciprocity of the whole graph", "anchors": ["Source/sequoia/Maths/Graph/Connectivity.hpp: swap_nodes", "Source/sequoia/Core/DataStructures/PartitionedData.hpp: swap_partitions"]}
{"id": "C17", "title": "erase_edge removes exactly one edge", "statement": "erase_edge removes the chosen edge and (in undirected flavours) exactly one partner half, leaving all other edges in order.", "quantifier": "every graph and edge", "why_tests_cant": "multi-edges and loops in all arrangements", "anchors": ["Source/sequoia/Maths/Graph/Connectivity.hpp: erase_edge"]}
{"id": "C18", "title": "Undirected initialisation accepts exactly reciprocal input", "statement": "Constructing an undirected graph from nested initializer lists succeeds if and only if every target is in range and the listing is reciprocal; otherwise it throws; on success the nodes hold the listed edges sorted by target (then weight).", "quantifier": "every initializer list, with and without totally ordered weights", "why_tests_cant": "all inputs", "anchors": ["Source/sequoia/Maths/Graph/Connectivity.hpp: preprocess, validate, visit_edges"]}
{"id": "C19", "title": "Embedded initialisation accepts exactly consistent input", "statement": "Constructing an embedded graph from nested initializer lists succeeds iff targets and complementary indices are in range, mutual, not self-referential and weights agree; otherwise it throws rather than reading out of range.", "quantifier": "every initializer list", "why_tests_cant": "all inputs", "anchors": ["Source/sequoia/Maths/Graph/Connectivity.hpp: validate"]}
{"id": "C20", "title": "Setting a weight changes both halves and nothing else", "statement": "set_edge_weight / mutate_edge_weight on an undirected or embedded graph changes the selected half edge and one partner half of the same edge; no other weight changes and the structure is unchanged. If the assignment throws part-way the graph is left unchanged.", "quantifier": "every graph, edge, new weight and throwing point", "why_tests_cant": "all graphs; failure points", "anchors": ["Source/sequoia/Maths/Graph/Connectivity.hpp: set_edge_weight, manipulate_partner_edge_weight, weight_sentinel"]}
{"id": "C21", "title": "Shared weights are shared by the two halves", "statement": "With shared weight storage, the two halves of an undirected edge refer to the same weight object, so a change made through either is visible through both, however the edge was created (join, initializer list, copy).", "quantifier": "every history including construction", "why_tests_cant": "aliasing depends on construction path", "anchors": ["Source/sequoia/Maths/Graph/Connectivity.hpp: process_edges, copy_edges, edge_maker, join", "Source/sequoia/Core/Object/Handlers.hpp: shared"]}
{"id": "C22", "title": "Breadth first traversal", "statement": "traverse(breadth_first) calls the node function exactly once for each node reachable from the start (for every node, with find_disconnected), for no other node, and in order of non-decreasing distance from the start; it terminates.", "quantifier": "every graph and start node", "why_tests_cant": "all graphs", "anchors": ["Source/sequoia/Maths/Graph/GraphTraversalDetails.hpp: traversal_helper::traverse, inner_loop", "Source/sequoia/Maths/Graph/DynamicGraphTraversalDetails.hpp"]}
{"id": "C23", "title": "Pseudo depth first and priority traversal", "statement": "traverse(pseudo_depth_first) and traverse(priority_first) likewise visit each reachable node exactly once; priority search always continues with a discovered, unprocessed node of maximal weight.", "quantifier": "every graph and start node", "why_tests_cant": "all graphs", "anchors": ["Source/sequoia/Maths/Graph/GraphTraversalDetails.hpp: traversal_helper::traverse"]}
{"id": "C24", "title": "Depth first traversal", "statement": "traverse(depth_first) visits each reachable node once in true depth-first order: before-calls and after-calls are properly nested, and each edge reported leads to a node undiscovered at that moment, so reported edges form a spanning forest.", "quantifier": "every graph and start node", "why_tests_cant": "recursion depth and shape are unbounded", "anchors": ["Source/sequoia/Maths/Graph/GraphTraversalDetails.hpp: traverse(depth_first_search_type), inner_loop"]}
{"id": "C25", "title": "Undirected edges are traversed first and second once", "statement": "In queue-based traversals of an undirected graph every edge within the visited component is reported exactly once by the first-traversal function and exactly once by the second-traversal function, loops included.", "quantifier": "every undirected or embedded graph and start", "why_tests_cant": "order of discovery and loop positions are unbounded", "anchors": ["Source/sequoia/Maths/Graph/GraphTraversalDetails.hpp: loop_processor, inner_loop"]}
{"id": "C26", "title": "Static traversals never overflow their queue", "statement": "The queue/stack/priority queue of capacity order() used for static graphs is never pushed beyond its capacity, nor read when empty.", "quantifier": "every graph, start node and traversal flavour", "why_tests_cant": "all graphs", "anchors": ["Source/sequoia/Maths/Graph/StaticGraphTraversalDetails.hpp", "Source/sequoia/Maths/Graph/GraphTraversalDetails.hpp"]}
{"id": "C27", "title": "Copying a graph reproduces it", "statement": "Copy construction gives a graph equal to the source and, with shared weights, with the same sharing pattern between halves but no sharing with the source.", "quantifier": "every graph", "why_tests_cant": "aliasing and index arithmetic for all graphs", "anchors": ["Source/sequoia/Maths/Graph/Connectivity.hpp: copy_edges, edge_maker"]}
{"id": "C28", "title": "sub_graph is the induced subgraph", "statement": "sub_graph(g, pred) contains exactly the nodes whose weight satisfies pred, in order, with exactly the edges of g between them, in order.", "quantifier": "every graph and predicate", "why_tests_cant": "all graphs", "anchors": ["Source/sequoia/Maths/Graph/GraphAlgorithms.hpp: sub_graph"]}
{"id": "C29", "title": "Trees stay trees", "statement": "A tree built by initialisation and add_node/insert_node is a rooted tree: following parent links from any node reaches the root, and child links are their inverse.", "quantifier": "every history", "why_tests_cant": "histories are unbounded", "anchors": ["Source/sequoia/Maths/Graph/DynamicTree.hpp: add_node, insert_node", "Source/sequoia/Maths/Graph/GraphPrimitive.hpp: build_tree, insert_node_to_tree"]}
{"id": "C30", "title": "prune removes exactly the subtree", "statement": "prune(n) removes n and all its descendants, nothing else, and terminates.", "quantifier": "every reachable tree of every link direction, every node", "why_tests_cant": "index shifts while recursing depend on numbering produced by the history", "anchors": ["Source/sequoia/Maths/Graph/DynamicTree.hpp: prune"]}
{"id": "C31", "title": "Failed insertions are rolled back", "statement": "If creating an edge or node throws part way (reciprocal half, node weight), the graph is left as before the call.", "quantifier": "every failing allocation/copy point of join, insert_join, add_node, insert_node", "why_tests_cant": "failure points crossed with states", "anchors": ["Source/sequoia/Maths/Graph/Connectivity.hpp: join_sentinel", "Source/sequoia/Maths/Graph/GraphPrimitive.hpp: insertion_sentinel"]}
{"id": "C32", "title": "thread_pool runs each task exactly once", "statement": "Every task pushed to a thread_pool before join is executed exactly once, whatever the interleaving of workers, and join returns only afterwards.", "quantifier": "every number of workers and tasks and every schedule", "why_tests_cant": "schedules are unbounded", "anchors": ["Source/sequoia/Core/Concurrency/ConcurrencyModels.hpp: thread_pool, task_queue"]}
{"id": "C33", "title": "thread_pool does not deadlock or lose wake-ups", "statement": "After join has been called there is always a step that can be taken until all workers have finished, and only finitely many are needed.", "quantifier": "every schedule", "why_tests_cant": "schedules are unbounded", "anchors": ["Source/sequoia/Core/Concurrency/ConcurrencyModels.hpp: thread_pool, task_queue"]}
{"id": "C34", "title": "Command line parsing", "statement": "parse_invoke_depth_first: each argument is consumed exactly once and in order, help requests produce no operations, unknown arguments and missing parameters are rejected with an exception.", "quantifier": "every option tree and argument vector", "why_tests_cant": "all trees and vectors", "anchors": ["Source/sequoia/Parsing/CommandLineArguments.cpp: argument_parser::parse, process_option, process_concatenated_aliases"]}
{"id": "C35", "title": "replace_all replaces every occurrence", "statement": "replace_all(text, from, to) with non-empty from replaces each non-overlapping occurrence found scanning left to right and terminates; an empty from is handled.", "quantifier": "every text and pattern", "why_tests_cant": "all strings", "anchors": ["Source/sequoia/TextProcessing/Substitutions.cpp: replace_all"]}
{"id": "C36", "title": "replace_all_recursive leaves no occurrence", "statement": "When it terminates replace_all_recursive leaves no occurrence of from; it terminates whenever to does not contain from.", "quantifier": "every text and pattern", "why_tests_cant": "termination over all inputs", "anchors": ["Source/sequoia/TextProcessing/Substitutions.cpp: replace_all_recursive"]}
{"id": "C37", "title": "snake_case and CamelCase conversions invert each other", "statement": "to_camel_case(to_snake_case(x)) = x for camel-case identifiers, and conversely for well-formed snake case.", "quantifier": "every identifier", "why_tests_cant": "all strings", "anchors": ["Source/sequoia/TextProcessing/Substitutions.cpp: to_camel_case, to_snake_case", "Source/sequoia/TextProcessing/Substitutions.hpp: camel_to_words"]}
{"id": "C38", "title": "Indentation", "statement": "indent prefixes every non-empty line with the indentation and changes nothing else; it is a homomorphism for line concatenation; append_indented joins with a newline.", "quantifier": "every string", "why_tests_cant": "all strings", "anchors": ["Source/sequoia/TextProcessing/Indent.cpp: indent, append_indented, tabs_to_spacing"]}
{"id": "C39", "title": "Matched delimiters are found", "statement": "find_matched_delimiters returns the first opening delimiter and the position just past its matching close, or reports none; the text between is balanced.", "quantifier": "every string and delimiter pair", "why_tests_cant": "all strings", "anchors": ["Source/sequoia/TextProcessing/Patterns.cpp: find_matched_delimiters"]}
{"id": "C40", "title": "Factory finds what was registered", "statement": "A factory can be constructed iff its names are distinct and non-empty; make(name) returns the product registered under name and throws iff none was; make_or falls back to the default.", "quantifier": "every list of names and query", "why_tests_cant": "all lists", "anchors": ["Source/sequoia/Core/Object/Factory.hpp"]}
{"id": "C41", "title": "Suite filtering keeps exactly the selected leaves", "statement": "extract applied to a suite keeps precisely the leaves accepted by the filter, in order, under the same chain of suites, and keeps no empty suite.", "quantifier": "every suite tree and predicate", "why_tests_cant": "all trees", "anchors": ["Source/sequoia/Core/Object/Suite.hpp: extract, extract_tree, extract_leaves"]}
{"id": "C42", "title": "Granular filter semantics", "statement": "granular_filter accepts a leaf iff nothing is selected at all, or the leaf itself or any enclosing suite was selected; it reports selections that matched nothing.", "quantifier": "every selection and tree", "why_tests_cant": "all selections", "anchors": ["Source/sequoia/Core/Object/Suite.hpp: granular_filter"]}
{"id": "C43", "title": "Stale tests are never skipped", "statement": "If any file on which a test transitively depends through includes has changed since the reference time stamp, find_stale_tests selects the test; if none has, it does not.", "quantifier": "every include graph (cycles included) and every assignment of time stamps", "why_tests_cant": "all graphs and time stamps", "anchors": ["Source/sequoia/TestFramework/DependencyAnalyzer.cpp: find_stale_tests"]}
{"id": "C44", "title": "Prune records track the latest outcome", "statement": "After any history of full and filtered runs, the recorded failures are exactly the tests whose latest execution failed, the recorded passes exactly those tests whose last execution (since the last full run) passed, and no test is in both.", "quantifier": "every history of runs", "why_tests_cant": "histories are unbounded", "anchors": ["Source/sequoia/TestFramework/DependencyAnalyzer.cpp: update_prune_files, aggregate_failures, aggregate_passes"]}
{"id": "C45", "title": "A crash while recording never hides a failing test", "statement": "If the process dies at any point during update_prune_files, the next pruned run still executes each test whose latest execution failed.", "quantifier": "every crash point and history", "why_tests_cant": "crash points", "anchors": ["Source/sequoia/TestFramework/DependencyAnalyzer.cpp: update_prune_files, write_tests"]}
{"id": "C46", "title": "soft_update makes the destination match the source", "statement": "soft_update(from,to) makes the directory tree to identical in content to from, copying only what differs.", "quantifier": "every pair of directory trees", "why_tests_cant": "all trees", "anchors": ["Source/sequoia/TestFramework/MaterialsUpdater.cpp: soft_update"]}
{"id": "C47", "title": "Failure records round-trip through a file", "statement": "Writing failure information to a stream and reading it back gives the same records.", "quantifier": "every list of records and messages", "why_tests_cant": "all messages", "anchors": ["Source/sequoia/TestFramework/FailureInfo.cpp: operator<<, operator>>"]}
{"id": "C48", "title": "Instability analysis", "statement": "The analysis reports no instability iff all runs produced identical failures, and never throws on sorted input.", "quantifier": "every list of runs", "why_tests_cant": "all runs", "anchors": ["Source/sequoia/TestFramework/FailureInfo.cpp: analyse_output"]}
{"id": "C49", "title": "Test logger accounting", "statement": "A top-level check is counted once, is counted as failed iff some check within it failed (for false-negative checks: iff none failed), and the number of failures never exceeds the number of checks.", "quantifier": "every nesting of checks", "why_tests_cant": "nesting is unbounded", "anchors": ["Source/sequoia/TestFramework/TestLogger.hpp: sentinel", "Source/sequoia/TestFramework/TestLogger.cpp"]}
{"id": "C50", "title": "Combining log summaries", "statement": "operator+= on log_summary is associative, adds every counter, and the empty summary is neutral; no counter wraps below zero.", "quantifier": "every list of summaries", "why_tests_cant": "all", "anchors": ["Source/sequoia/TestFramework/TestLogger.cpp: log_summary"]}
{"id": "C51", "title": "Shell command chaining", "statement": "operator&& on shell commands is associative with the empty command as identity.", "quantifier": "all commands", "why_tests_cant": "all strings", "anchors": ["Source/sequoia/Runtime/ShellCommands.cpp: operator&&"]}
{"id": "C52", "title": "Statistics identities", "statement": "mean, variance, sample_variance and standard deviation satisfy their defining identities in exact arithmetic: variance = mean of squares - square of mean, sample_variance*(n-1) = variance*n, shift invariance; empty/one element input is reported as no value.", "quantifier": "every data set", "why_tests_cant": "all data sets", "anchors": ["Source/sequoia/Maths/Statistics/StatisticalAlgorithms.hpp"]}
{"id": "C53", "title": "Ratios are reduced without changing value", "statement": "ratio reduction and products preserve the rational value.", "quantifier": "all integers", "why_tests_cant": "all integers", "anchors": ["Source/sequoia/Maths/Algebra/Ratio.hpp"]}
{"id": "C54", "title": "Allocator-aware assignment", "statement": "assignment propagates the allocator exactly when the traits say so and always results in equal contents.", "quantifier": "every combination of propagation traits, allocators and contents", "why_tests_cant": "combinatorial in traits and states", "anchors": ["Source/sequoia/Core/ContainerUtilities/AssignmentUtilities.hpp"]}
{"id": "C55", "title": "All selected tests run exactly once", "statement": "When the runner sorts the tests and splits them into serial and parallel groups, each test is executed exactly once and no parallelizable test precedes a serial one, whatever the tree of suites.", "quantifier": "every suite tree", "why_tests_cant": "all trees; the comparator depends on positions which move during the sort", "anchors": ["Source/sequoia/TestFramework/TestRunner.cpp: sort_tests, run_tests", "Source/sequoia/Maths/Graph/GraphPrimitive.hpp: sort_nodes"]}
{"id": "C56", "title": "Include scanning finds every include", "statement": "get_includes extracts from a source file each file named in an include directive and nothing else, ignoring comments.", "quantifier": "every file content", "why_tests_cant": "all strings", "anchors": ["Source/sequoia/TestFramework/DependencyAnalyzer.cpp: get_includes"]}
{"id": "C57", "title": "Bitmask operators", "statement": "For enumerations opting in, the bitmask operators form a Boolean algebra on the underlying bits.", "quantifier": "all values of the underlying type", "why_tests_cant": "exhaustion over 64 bit values is infeasible", "anchors": ["Source/sequoia/Core/Logic/Bitmask.hpp"]}
{"id": "C58", "title": "Edge index types are wide enough", "statement": "The index type chosen for static graphs can represent every node index, edge index and the npos sentinel.", "quantifier": "every order and size", "why_tests_cant": "all sizes", "anchors": ["Source/sequoia/Maths/Graph/StaticGraph.hpp", "Source/sequoia/Maths/Graph/StaticGraphDetails.hpp: to_index_max"]}
{"id": "C59", "title": "join and insert_join add exactly one edge", "statement": "join(i, j) appends exactly one edge between nodes i and j; insert_join puts the two halves at exactly the requested positions and returns iterators to them. Nothing else changes, and erasing either half of the new edge restores the graph. A node or position which does not exist throws and changes nothing.", "quantifier": "every graph, pair of nodes, pair of positions and weight", "why_tests_cant": "all graphs and positions, including loops where the two insertions interfere", "anchors": ["Source/sequoia/Maths/Graph/Connectivity.hpp: join, insert_join, insert_reciprocal_join"]}
{"id": "C60", "title": "Conditional replacement replaces exactly the qualifying occurrences", "statement": "replace_all(text, anyOfLeft, from, anyOfRight, to), and the version with predicates, terminates and replaces exactly those occurrences of from whose neighbouring characters satisfy the conditions.", "quantifier": "every text, pattern, replacement and pair of conditions", "why_tests_cant": "the occurrences which are missed depend on how occurrences lie next to each other; no finite set of texts covers all arrangements", "anchors": ["Source/sequoia/TextProcessing/Substitutions.hpp: replace_all(text, lPred, from, rPred, to)", "Source/sequoia/TextProcessing/Substitutions.cpp: replace_all(text, anyOfLeft, from, anyOfRight, to)"]}
{"id": "C61", "title": "Sorting nodes only renumbers them", "statement": "sort_nodes, given a range of nodes and a comparator of nodes, leaves a graph which is the original one with the nodes renumbered: every node keeps its weight and its edges, in order, with the targets renumbered accordingly; nodes outside the range keep their numbers; the weights in the range are sorted according to the comparator; and undirected, embedded and tree structure is kept.", "quantifier": "every graph (directed, undirected, embedded, tree), every range of nodes, every comparator which is a strict weak ordering of weights with ties decided in any way", "why_tests_cant": "The sort performs a data-dependent sequence of swaps, each of which rewrites the targets of edges throughout the graph; tests cover a few graphs of a few nodes.", "anchors": ["Source/sequoia/Maths/Graph/GraphPrimitive.hpp: sort_nodes", "Source/sequoia/Algorithms/Algorithms.hpp: sort"]}
{"id": "C62", "title": "Algorithms on lists of types", "statement": "The compile-time algorithms on lists of types and on index sequences have the effects their names promise: concatenation, filtering, rotation, reversal, translation and partial sums of index sequences; dropping, keeping, inserting, erasing, finding, filtering, concatenating and reversing types; lower_bound separates the types less than a given one from the others; merge and stable_sort give a sorted list with the same types, equivalent types keeping their order; a faithful type list has each type once; the union of lists is the faithful list of their types; flatten removes all nesting.", "quantifier": "every list of types, every index sequence, every comparison of types which is a strict weak ordering, every trait", "why_tests_cant": "The algorithms are templates over lists of any length; the static checks instantiate them for a handful of short lists.", "anchors": ["Source/sequoia/Core/Meta/Sequences.hpp: concat_sequences, filtered_sequence, rotate_sequence, reverse_sequence, shift_sequence, sequence_partial_sum", "Source/sequoia/Core/Meta/TypeAlgorithms.hpp: lower_bound, filter, drop, keep, insert, erase, merge, stable_sort, find, find_if, contains, flatten, concat, reverse", "Source/sequoia/Core/Meta/TypeList.hpp: faithful_type_list, type_list_union"]}
{"id": "C63", "title": "The units of products and quotients", "statement": "The type of an expression of physical units, made from base units by multiplication and division, depends only on the exponents of the base units and determines them: expressions with the same exponents have the same type, in whatever order they are evaluated, and expressions with different exponents have different types. Every such expression is well-formed; if all exponents cancel it is no_unit_t. Multiplication is commutative and associative, division its inverse. The unit of a product of quantities is the product of the units. Values are restricted to the half line precisely if those of all base units involved are. The comparison by which units are put in order is a well-formed strict total order.", "quantifier": "every finite expression in any number of base units, every total order of the names of types, every validator of the base units", "why_tests_cant": "Units are computed by templates which are instantiated for each expression; static checks settle single expressions only.", "anchors": ["Source/sequoia/Physics/PhysicalValuesDetails.hpp: type_comparator, count_and_combine, unpack, reduce, simplify, to_composite_space, dual_of", "Source/sequoia/Physics/PhysicalValues.hpp: reduction, reduced_validator, operator*, operator/ for units, physical_value_product", "Source/sequoia/Maths/Geometry/Spaces.hpp: dual_of"]}
{"id": "C64", "title": "The conversion of quantities between units", "statement": "Converting a quantity from one unit to another gives the number which describes the same quantity with respect to the other unit: coordinates are transformed by the ratios and displacements by which both units derive from their common root, differences by the ratios only, values with composite units by the product of the factors of their parts, those of the denominators inverted. Conversions compose, and converting there and back gives the original value. The validator of a unit accepts precisely the coordinates of the quantities which the validator of the base unit accepts, so that converting a valid value does not throw. Every two units of the same kind can be converted into one another.", "quantifier": "every chain of derived units of any length, every ratio and displacement, integral or not, whether or not products of ratios overflow, every composite of such units, every value", "why_tests_cant": "Tests convert between a handful of units; the ratios are combined at compile time along arbitrary chains.", "anchors": ["Source/sequoia/Physics/PhysicalValues.hpp: convert_to, coordinate_transformation, root_transform, root_transform_unit, inverse, product, synthesised_validator", "Source/sequoia/Maths/Algebra/Ratio.hpp: ratio, ratio_product", "Source/sequoia/Maths/Geometry/Spaces.hpp: interval_validator, half_line_validator"]}
{"id": "C65", "title": "Coordinates stay in their space", "statement": "Arithmetic on coordinates computes the mathematical result component by component if that is a point of the space; otherwise it throws and the object keeps its value. The coordinates of an object are always those of a point of the space, whatever its history. Points and displacements obey the laws of affine spaces and numbers those of scaling.", "quantifier": "every dimension, every field of values, every validator which throws for, or moves, the values outside the space, every history of operations", "why_tests_cant": "Tests use a few spaces of dimension one and two and a few values.", "anchors": ["Source/sequoia/Maths/Geometry/Spaces.hpp: coordinates_base, validator_for, apply_to_each_element, for_each_element"]}
{"id": "C66", "title": "A check passes exactly if it should", "statement": "A check of two values returns true if and only if no failure was logged during it, and counts as one top-level check, whatever the operators and testers of users do. If these are truthful, the check passes exactly if the values are equal or, for pointers, if the addresses (equality) or what they point to (equivalence) agree, and for functions if both are empty or neither is. A std::any passes exactly if it holds a value of the predicted type which passes. A range passes only if it has the predicted size and each element passes, even if its operator== is wrong. Equality is the strongest check and with_best_available is as strong as any available one. If the constraints of a check are satisfied then it compiles. check_exception_thrown passes exactly if an exception of the expected type is thrown.", "quantifier": "every kind of check, every type built from classes, strings, ranges, pairs, tuples, variants, optionals, pointers, functions and time points, all values, all operators and testers of users, every state of the logger", "why_tests_cant": "The framework tests itself for some dozens of types; types nest without bound, and the dispatch among testers, ranges and operators depends on all of their traits.", "anchors": ["Source/sequoia/TestFramework/FreeCheckers.hpp: check, general_equivalence_check, binary_comparison, select_test, check_exception_thrown", "Source/sequoia/TestFramework/ConcreteTypeCheckers.hpp: value_tester for strings, pairs, tuples, variants, optionals, std::any, pointers, std::function and std::chrono::time_point", "Source/sequoia/Core/Meta/TypeTraits.hpp: is_deep_equality_comparable"]}
{"id": "C67", "title": "A check of paths passes exactly if what is there is what is predicted", "statement": "A check of equivalence of two paths passes if and only if both exist, have the same name, and are two files with the same content or two directories which, at all levels, have the same names and files with the same content; for weak equivalence, names do not matter. Entries called .DS_Store or .keep and those with the extension .seqpat are ignored, and so is what is matched by the patterns in the .seqpat file beside a prediction. If a check does not pass then it reports a failure. Comparers for particular extensions are used for the files which have them. What exists is equivalent to itself. Once predictions have been updated from the working materials, the check of the latter against the former passes.", "quantifier": "all directories of any depth and width, whatever the order in which their entries are listed, all contents, all patterns, all comparers, both kinds of equivalence", "why_tests_cant": "The tests compare a few small directories; differences can be at any depth, and excluded entries, patterns and the order of listing interact.", "anchors": ["Source/sequoia/TestFramework/ConcreteTypeCheckers.hpp: value_tester<std::filesystem::path>, general_file_checker, string_based_file_comparer", "Source/sequoia/TestFramework/FileEditors.cpp: get_reduced_file_content", "Source/sequoia/TestFramework/MaterialsUpdater.cpp: soft_update"]}
{"id": "C68", "title": "A check of semantics passes exactly for types which behave", "statement": "The check of the semantics of a type passes if and only if all the expectations of a fixed experiment are met: that equality and order are consistent, that copies are equal to the original, that assignment, including that of an object to itself, moves, swaps, including that of an object with itself, and serialization preserve values, that what has been moved from is as predicted, and that mutation of a copy leaves the original alone. Well behaved types pass. If equality and inequality tell the truth then every defect of these kinds is detected, including copies which share their value with the original.", "quantifier": "all types, given by what their operations do to an arbitrary state of the program, all objects, orders, predictions and mutators, regular types and types which can only be moved", "why_tests_cant": "The tests check a few broken types, each with one defect; a type may be defective in any way, including effects on objects which are not involved.", "anchors": ["Source/sequoia/TestFramework/SemanticsCheckersDetails.hpp: check_prerequisites, check_ordering_consistency, do_check_move_construction, do_check_move_assign, do_check_swap, do_check_serialization", "Source/sequoia/TestFramework/RegularCheckersDetails.hpp: check_semantics", "Source/sequoia/TestFramework/MoveOnlyCheckersDetails.hpp: check_semantics", "Source/sequoia/TestFramework/RegularCheckers.hpp: check_semantics"]}
{"id": "C69", "title": "Reordering edges changes the order of the edges given and nothing else", "statement": "Sorting a range of edges of a node leaves that range sorted and a rearrangement of what it was; edges of the node outside the range, and all other nodes and edges, are as before. The stable sort also keeps the order of equivalent edges. Iterators belonging to different nodes do nothing. Swapping two edges of a node exchanges them and nothing else; an index out of range throws and changes nothing.", "quantifier": "all directed graphs and undirected graphs without embedding, all nodes, ranges and indices, all strict weak orders on edges", "why_tests_cant": "The tests sort a few edges of small graphs with one order; ranges, orders and sizes are unbounded.", "anchors": ["Source/sequoia/Maths/Graph/Connectivity.hpp: sort_edges, stable_sort_edges, swap_edges"]}
{"id": "C70", "title": "Every test starts with pristine materials", "statement": "When suites are added, and whenever tests are reset between runs, the temporary materials of each test become an exact copy of its materials, whatever was left there before: a copy of everything if there are no predictions; otherwise a copy of what is to be worked on, which is empty if there is nothing, of the auxiliary materials, and nothing else. This is so even if several tests share materials. The materials themselves, and the rest of the file system, are not changed, except that directories for the temporary materials are created.", "quantifier": "all states of the file system in which the materials and the temporary materials are apart, all suites of tests, whichever tests share materials, and all leftovers of previous runs", "why_tests_cant": "The tests use a few materials; the trees of files, the leftovers and the way in which tests share materials are unbounded.", "anchors": ["Source/sequoia/TestFramework/TestRunner.cpp: set_materials, reset_tests", "Source/sequoia/TestFramework/TestRunner.hpp: extract_suite_tree", "Source/sequoia/TestFramework/IndividualTestPaths.cpp: individual_materials_paths"]}
{"id": "C71", "title": "Selecting by path selects the tests of that source", "statement": "A test is selected by the path of its source if the path is absolute, relative to the repository, or relative with leading dots and an overlap with the path of the repository, in whichever of these forms the compiler has recorded it; a relative path to which only one file may refer selects the tests of that file. An absolute path, and a relative one without ambiguity, select no other tests.", "quantifier": "all repositories, contents of repositories, paths given by the user or by pruning and paths recorded by the compiler", "why_tests_cant": "The tests use a few paths in one repository; whether names in the path coincide with those of the directories above, or other files have the same name, depends on where the project is.", "anchors": ["Source/sequoia/TestFramework/TestRunner.cpp: path_equivalence::operator()", "Source/sequoia/TestFramework/FileSystemUtilities.cpp: rebase_from, find_in_tree", "Source/sequoia/FileSystem/FileSystem.hpp: rfind, back"]}
{"id": "C72", "title": "The files which record the outcome of tests are complete", "statement": "The summary of a test is put in a file whose place depends only on the place of the source in the repository, whatever the form of the path recorded by the compiler, and the summaries of two tests are in the same file exactly if their sources are in the same directory and have the same stem. After a run such a file holds the summaries of all tests of the run which belong there, in order, each of them once, and nothing else. The file for diagnostics of a test holds the diagnostics of the last run, and so does that for exceptions.", "quantifier": "all projects, places of sources, runs of any number of tests and previous states of the files", "why_tests_cant": "The tests compare the output of a few runs; the number of tests, the ways in which they share files and previous contents are unbounded.", "anchors": ["Source/sequoia/TestFramework/IndividualTestPaths.cpp: test_summary_filename, versioned_diagnostics", "Source/sequoia/TestFramework/TestRunner.cpp: test_tracker::to_file, test_vessel::versioned_write", "Source/sequoia/TestFramework/TestRunner.hpp: write_versioned_output"]}
{"id": "C73", "title": "The command line of the test runner means what its options say", "statement": "For every command line which is accepted: a recovery file, a dump, verbose output, updates of materials and pruning are in force exactly if the respective option is given and nothing else on the line excludes it; the suites and files selected are those named, in order; the concurrency, the number of repetitions, the identifier, the cutoff and the size of the thread pool are those of the last occurrence of the respective option. Recovery and concurrency, pruning and selection, updates and the search for instabilities are never in force together. A command line is refused exactly if a number is not one, fewer than two repetitions are asked for, or recovery and a thread pool are. A request for help changes nothing. The behaviour is always defined.", "quantifier": "all command lines; all states of the project's directories", "why_tests_cant": "there are infinitely many command lines, and the options interact in pairs and by order", "anchors": ["Source/sequoia/TestFramework/TestRunner.cpp: test_runner::process_args, check_argument_consistency", "Source/sequoia/Parsing/CommandLineArguments.cpp"]}
{"id": "C74", "title": "The order of the options of the test runner does not matter", "statement": "If two command lines consist of the same options with the same arguments and the same options below them, in a different order, then one is accepted exactly if the other is, and the same is done.", "quantifier": "all command lines and all of their permutations", "why_tests_cant": "there are infinitely many command lines, each with many orders", "anchors": ["Source/sequoia/TestFramework/TestRunner.cpp: test_runner::process_args"]}
{"id": "C75", "title": "Sandboxes run the tests which were selected", "statement": "When instabilities are looked for in sandboxes, there are as many child processes as repetitions, each with its own identifier, and each runs exactly the tests selected for the parent, by name, by file or by pruning, with the same number of repetitions and the same concurrency.", "quantifier": "all command lines of the parent, all sets of suites and tests, all results of pruning", "why_tests_cant": "the child's command line is made from the parent's state, and must mean the same for every selection", "anchors": ["Source/sequoia/TestFramework/TestRunner.cpp: test_runner::execute, to_async_option, do_prune", "Source/sequoia/Core/Object/Suite.hpp: granular_filter"]}
{"id": "C76", "title": "Each test which is asked for is created once", "statement": "The tests which are created by a command line are those which are asked for, in order, each with the arguments and the settings given for it, and each is finalized exactly once.", "quantifier": "all command lines", "why_tests_cant": "there are infinitely many command lines with any number of tests and settings", "anchors": ["Source/sequoia/TestFramework/TestRunner.cpp: test_runner::process_args, nascent_test_data"]}
{"id": "C77", "title": "Adding an include changes nothing else", "statement": "Adding an include to a file adds the directive once, keeps every directive and every other line of the file, and leaves the directives sorted, those with quotes first.", "quantifier": "all files, all headers, all implementations of sorting", "why_tests_cant": "any file of a project may be edited", "anchors": ["Source/sequoia/TestFramework/FileEditors.cpp: add_include"]}
{"id": "C78", "title": "Tests are added to the right suite, each of them once", "statement": "Adding tests to a suite adds those which are not there yet to the suite with the given name, each of them once; adding the same tests again changes nothing; a suite which does not exist is added behind the others; nothing else in the program changes.", "quantifier": "all programs with any number of suites and tests, all names, all lists of tests", "why_tests_cant": "the positions at which text is inserted depend on all of the program", "anchors": ["Source/sequoia/TestFramework/FileEditors.cpp: add_to_suite"]}
{"id": "C79", "title": "Adding a file to a list for CMake changes nothing else", "statement": "Adding a file to a list of sources adds its entry, keeps all the other entries, leaves the list sorted and aligned and changes nothing outside the list; if there is no such list then nothing is written.", "quantifier": "all files, all lists of entries with any indentation, all patterns", "why_tests_cant": "the list may be of any length, in any place and with any layout", "anchors": ["Source/sequoia/TestFramework/FileEditors.cpp: add_to_cmake"]}
{"id": "C80", "title": "Names of classes and their template parameters are understood", "statement": "From the name of a class, qualified or not, template or not, the namespace, the name and the template parameters are recovered whatever the spacing, in order; parameters which have been written are read again; the class is used with the names of its parameters, packs being expanded; angles which do not match are refused.", "quantifier": "all names, all lists of parameters of any length, all spacings", "why_tests_cant": "the position of each part depends on all the others, and there are infinitely many spacings and lists", "anchors": ["Source/sequoia/TestFramework/TestCreator.cpp: generate_template_spec, generate_template_data, to_string, nascent_semantics_test::finalize"]}
{"id": "C81", "title": "The text generated for a new test", "statement": "Fundamental types, pointers and references are passed by value and all other types by reference; each equivalent type gives one parameter with a name of its own; the variant for the kind of test is kept and the other one removed; the namespace is put into the text, or, if there is none, it is removed with its braces and its indentation.", "quantifier": "all types, all lists of types, all texts of templates", "why_tests_cant": "types and templates are arbitrary text", "anchors": ["Source/sequoia/TestFramework/TestCreator.cpp: handle_as_ref, nascent_semantics_test::transform_file, process_namespace"]}
{"id": "C82", "title": "Checks of transitions between states cover each transition once", "statement": "Given a graph of states and transitions, the function supplied by the user is called exactly once for each transition, also for those from states which cannot be reached from the first one, with the result of the transition applied to the object it starts from, the object it leads to, and a message which determines both nodes and the transition's description. States are dealt with in order of distance. A function comparing the result with the prediction is content exactly if all transitions are right. If transitions throw, the first one met ends the check.", "quantifier": "all graphs of states, with loops, multiple edges and several components, all transitions", "why_tests_cant": "graphs and transitions are arbitrary; a transition which is never looked at would not be noticed", "anchors": ["Source/sequoia/TestFramework/StateTransitionUtilities.hpp: transition_checker::check", "Source/sequoia/Maths/Graph/GraphTraversalFunctions.hpp: traverse"]}
{"id": "C83", "title": "Spaces, direct products and duals are classified as they should be", "statement": "Direct products and duals of vector, affine and convex spaces, nested in any way, are spaces with as much structure as all of their factors have; their field is the common one and their dimension the sum, and duals keep kind, field and dimension. The dual of the dual is the space itself. Vector spaces, half-lines, spaces declaring it and duals of such spaces, have a distinguished origin, and products of spaces with origins as well. The concepts are ordered: vector spaces are affine spaces and free modules, both of which are convex spaces. The same holds for free modules over rings.", "quantifier": "all families of declared spaces, all nestings of products and duals", "why_tests_cant": "nestings are unbounded, and which specialization is chosen depends on all factors", "anchors": ["Source/sequoia/Maths/Geometry/Spaces.hpp: free_module, vector_space, convex_space, affine_space, free_module_type_of, commutative_ring_type_of, dimension_of, direct_product, dual, dual_of, is_half_line, has_distinguished_origin"]}
{"id": "C84", "title": "Checks of relative performance pass if and only if the prediction accounts for the timings", "statement": "A check of relative performance rejects senseless arguments by throwing, and otherwise always has a verdict. It makes attempts: the k-th one has k times the requested number of trials, in each of which both tasks are run once. The verdict of an attempt is whether, apart from the least and the greatest timings, the fast task is clearly faster and some speed-up in the predicted range accounts for the means up to the given number of standard deviations. Attempts are made until the verdict is the one which the mode of the test requires, up to the number allowed. The check is logged once, with a failure if the verdict is not as required. The verdict depends neither on the unit of time nor, if it is as required, on allowing for more attempts; it is monotone in the predicted range.", "quantifier": "all arguments, all (non-negative) timings, which may depend on everything run before, all orders of the tasks, all modes", "why_tests_cant": "timings are not deterministic, and verdicts are about real numbers", "anchors": ["Source/sequoia/TestFramework/PerformanceTestCore.hpp: check_relative_performance, profile", "Source/sequoia/TestFramework/TestLogger.hpp: sentinel"]}
{"id": "C85", "title": "The output of performance tests is replaced by the reference if and only if they differ in timings at most", "statement": "The output of false-positive and false-negative performance tests is compared to the reference output: if the two are the same but for timings, with the same numbers of standard deviations and predicted ranges of speed-ups, then the reference output is used, and otherwise the output of the test is kept as it is. The comparison always comes to an end.", "quantifier": "all texts", "why_tests_cant": "timings are different from run to run, and texts are unbounded", "anchors": ["Source/sequoia/TestFramework/PerformanceTestCore.cpp: postprocess, acceptable_mismatch"]}
{"id": "C86", "title": "Checks of allocations pass if and only if all predictions are right", "statement": "The check of a regular or move-only type with allocators passes if and only if, in a straight-line experiment with copies, assignments, moves, swaps, mutations, serialization and construction with other allocators, all values are as they should be and each allocator has been used as often as predicted after each operation, and not at all by comparisons and serialization. For a type which behaves well and whose operations use allocators a known number of times, the check therefore passes if and only if each prediction which is relevant for the traits of the allocator is right: a wrong prediction, or an unexpected allocation, is never missed, and right predictions are accepted. If only some predictions are given, the others have the documented defaults. For scoped allocators there is one prediction for each level.", "quantifier": "all types, given by the effects of their operations on an arbitrary state; all objects, allocators, traits of allocators, predictions, claimed orders and mutators", "why_tests_cant": "The checker is tested with a handful of containers and faulty variants of these; which types and predictions pass depends on all effects the operations may have, in all combinations.", "anchors": ["Source/sequoia/TestFramework/AllocationCheckers.hpp: allocation_info, alloc_prediction_shifter", "Source/sequoia/TestFramework/AllocationCheckersDetails.hpp", "Source/sequoia/TestFramework/RegularAllocationCheckersDetails.hpp: check_semantics, check_para_constructor_allocations", "Source/sequoia/TestFramework/MoveOnlyAllocationCheckersDetails.hpp: check_semantics"]}
{"id": "C87", "title": "Unstable tests are found", "statement": "If tests are repeated, in the same process or in separate ones, the analysis which is made of the files that each repetition leaves is completed, and has precisely one report for each test some of whose repetitions had different failures. The report names the source file of the test, gives the frequencies of the different outcomes and shows the failures which tell them apart. Nothing is reported precisely if no test is unstable. The order in which tests are executed, and that in which the files are found, have no influence, and neither do files of previous runs.", "quantifier": "all lists of tests, numbers of repetitions, failures of each repetition, interleavings of executions and orders in which a directory is traversed", "why_tests_cant": "The analysis relies on the names of files being different for different tests, sorting next to each other, and on messages surviving being written and read; a test has a few fixed names, messages and numbers of repetitions.", "anchors": ["Source/sequoia/TestFramework/FailureInfo.cpp: instability_analysis, source_from_instability_analysis, read", "Source/sequoia/TestFramework/ProjectPaths.cpp: output_paths::instability_analysis_file", "Source/sequoia/TestFramework/FreeTestCore.cpp: test_base::write_instability_analysis_output", "Source/sequoia/TestFramework/TestRunner.cpp: test_runner::execute"]}
{"id": "C88", "title": "Expressions of quantities do not depend on the choice of units", "statement": "If an expression of physical quantities compiles then only quantities of the same dimension are added, subtracted or compared in it, and the unit of the result is that of its dimension. If the units of the inputs are changed, and so the numbers are multiplied by the appropriate factors, then the number of the result is multiplied by the factor for its unit; moving an origin which is a matter of choice moves points and leaves displacements alone. Whether there is an exception, and how comparisons turn out, is the same in all units. Quantities on the half line are never negative, and their sums, products and quotients never throw.", "quantifier": "all expressions of any size made of sums, differences, products, quotients, multiples, reciprocals and conversions to base spaces; all inputs, base units, positive factors and displacements of origins", "why_tests_cant": "A test has a few expressions with fixed units and numbers; that no expression whatever can mix dimensions or depend on the choice of units or origins is a statement about all of them.", "anchors": ["Source/sequoia/Physics/PhysicalValues.hpp: physical_value, operator+, operator-, operator*, operator/, physical_value_product", "Source/sequoia/Maths/Geometry/Spaces.hpp: coordinates_base"]}
{"id": "C89", "title": "Projects are created completely, and nothing else is touched", "statement": "A project which is created has everything that is in the template, with the directory of sources named after the project and the names of the project and its owner, the year and the indentation where they belong, and a copy of sequoia without what has been built and with only diagnostics and summaries of its output. Except for the directories above the project, and what git and the build do within it, nothing else changes. A project whose path is relative or in use, whose name is not acceptable, or whose indentation is not made of tabs and spaces is rejected before anything is done.", "quantifier": "all file systems, locations, names, owners, indentations, parent projects with or without sequoia as a dependency, and all behaviours of git and builds within their own directories", "why_tests_cant": "What is copied depends on the whole of the file system and on where the project is in relation to what is copied; tests create a few projects in one place.", "anchors": ["Source/sequoia/TestFramework/ProjectCreator.cpp: init_projects, copy_sequoia, generate_test_main, generate_build_system_files, check_indent, git_first_cmd", "Source/sequoia/TestFramework/TestRunnerUtilities.cpp: set_top_copyright", "Source/sequoia/TestFramework/ProjectPaths.cpp", "aux_files/ProjectTemplate"]}
{"id": "C90", "title": "Iterators over partitions stay in step with the partition", "statement": "However an iterator of a partition is moved within it, forwards or reversed, its distances, comparisons and partition index are what the moves add up to, it refers to the element at that position, a loop from the first to the last iterator visits each element once in order, and insertion and erasure at it act at that position and return an iterator to it. Equal iterators are interchangeable. The iterators of a partition which does not exist delimit an empty range and belong to no partition.", "quantifier": "all histories of either storage, all partitions, both directions, all sequences of moves which stay in the partition, all elements inserted", "why_tests_cant": "a test moves a few iterators over a few partitions; the claim is about every sequence of moves after every history", "anchors": ["Source/sequoia/Core/ContainerUtilities/Iterator.hpp: iterator, identity_dereference_policy", "Source/sequoia/Core/DataStructures/PartitionedData.hpp: begin_partition, end_partition, rbegin_partition, rend_partition, insert_to_partition, erase_from_partition, get_begin_iterator, get_end_iterator", "Source/sequoia/Core/DataStructures/PartitionedDataDetails.hpp: partition_index_policy", "Source/sequoia/Maths/Graph/Connectivity.hpp: edge_weight_dereference_policy"]}
{"id": "C91", "title": "The report on tests says what the log holds", "statement": "The text made of a log is a heading, one line for each kind of check of which there were any (or every kind, if asked for) with aligned columns of checks and failures, a notice if there were critical failures, and the messages if asked for. It can be read back: logs with different numbers have different texts. No kind of check of which some failed is left out. Times are shown in the largest unit of which they are at least one, as a number below a thousand.", "quantifier": "all logs, indentations, names, messages and combinations of what is asked for; all lists of summaries of loggers; all durations", "why_tests_cant": "a test compares the text of a few logs; the numbers, the widths of the columns and the histories of the loggers are unbounded", "anchors": ["Source/sequoia/TestFramework/Summary.cpp: stringify, report_time, summarize", "Source/sequoia/TestFramework/Summary.hpp: pad_left, pad_right"]}
{"id": "C92", "title": "The messages of a logger say what failed, where and in which check", "statement": "Whatever happens within a check, however checks are nested, the logger adds, in the order in which things failed, one message for each failure to the report of failures or, if failures are expected, to the diagnostics: the text of the failure at the indentation of its level, and the descriptions of the checks around it above the first of their reports. The last message of a check is closed by an empty line and a rule, messages of earlier checks are left alone, a check which was expected to fail and did not is reported, and every exception is reported with the description of the check.", "quantifier": "all modes, all histories of checks, all nestings of checks within checks, all texts", "why_tests_cant": "a test looks at the text of a few failures; nesting, order and texts are unbounded", "anchors": ["Source/sequoia/TestFramework/TestLogger.cpp: sentinel_base::~sentinel_base, test_logger_base::failure_message, log_top_level_failure, log_caught_exception_message, end_message, output_channel, decrement_depth", "Source/sequoia/TestFramework/Output.cpp: end_block, footer"]}
{"id": "C93", "title": "Reports of failures identify what was obtained and where", "statement": "The characters, texts and pointers which were obtained and predicted can be read off the report of a failure; the file, line and message can be read off the report of a location; different files of the repository are reported differently. If a test ends because of an exception, it is reported whether this was before, during or after a check, and which.", "quantifier": "all characters, texts of one line, pairs of pointers, files within a repository, relative paths, line numbers, histories of checks", "why_tests_cant": "a test compares a few reports with expected texts; it does not show that different situations are reported differently", "anchors": ["Source/sequoia/TestFramework/Output.hpp: display_character, prediction_message", "Source/sequoia/TestFramework/Output.cpp: default_prediction_message, nullable_type_message, path_for_reporting, report_line, exception_message"]}
{"id": "C94", "title": "Each node of a graph has the weight which was given for it", "statement": "A graph made from lists of edges and of weights of nodes has, for each node, the weight listed for it; if the numbers of nodes and weights differ, an exception is thrown. Afterwards there is always one weight for each node, and the weights are those which result from the insertions, erasures, swaps and settings which were asked for, whatever is done to the edges.", "quantifier": "all lists of edges and weights; directed, undirected, embedded, static and heterogeneous graphs; all histories of calls", "why_tests_cant": "a test constructs a few graphs; it does not show that weights and nodes stay in step after every history", "anchors": ["Source/sequoia/Maths/Graph/GraphPrimitive.hpp: graph_primitive, check_initialization", "Source/sequoia/Maths/Graph/NodeStorage.hpp: set_node_weight, mutate_node_weight", "Source/sequoia/Maths/Graph/StaticNodeStorage.hpp: static_node_storage", "Source/sequoia/Maths/Graph/HeterogeneousNodeStorage.hpp: heterogeneous_node_storage", "Source/sequoia/Core/ContainerUtilities/ArrayUtilities.hpp: to_array"]}
{"id": "C95", "title": "The paths of a project are found, and kept apart", "statement": "If the executable is somewhere in the directory build of a project, then that project is found, with the cache of CMake, which is beside the executable or one level back; if it is not, an exception is thrown. The directories of a project, and those in which output is kept, are never inside of one another. The records which allow tests to be skipped belong to one executable: those of different executables or different repetitions are kept in different files.", "quantifier": "all positions of the executable, contents of directories and names; all pairs of builds of a project and of records", "why_tests_cant": "a test runs from one place, in one build", "anchors": ["Source/sequoia/TestFramework/ProjectPaths.cpp: discoverable_paths::make, get_cmake_cache, source_paths, auxiliary_paths, recovery_paths, prune_paths, output_paths, project_paths"]}
{"id": "C96", "title": "The functions passed to a traversal, and their results", "statement": "A function left out of a traversal changes nothing about the calls of the others. With the default execution model the function objects themselves are called, one call after the other, so that they may collect what they see, and the first exception ends the traversal. If results are asked for, there is one for each call, in the order of the calls, whatever the execution model; with a thread pool each is obtained once the pool has been joined. Functions with mutable state keep it from call to call.", "quantifier": "all graphs, flavours, containers, subsets of functions, functions with any state, results and exceptions, and all executions of a thread pool", "why_tests_cant": "there are many combinations of functions, models and schedules; a test tries a few", "anchors": ["Source/sequoia/Maths/Graph/GraphTraversalDetails.hpp: traverse, inner_loop, results_accumulator", "Source/sequoia/Maths/Graph/GraphTraversalFunctions.hpp: traverse", "Source/sequoia/Core/Concurrency/ConcurrencyModels.hpp: serial, asynchronous, thread_pool::push"]}
{"id": "C97", "title": "Adaptors of trees and forests reach what is below a node", "statement": "An adaptor stands for a node of a tree. Visiting a node and, by recursion, the trees of its forest terminates, and reaches the node and all its descendants, each once, parents before children and the children in the order of the edges. The range over a forest has one tree for each of them, with all of its nodes. An adaptor which converts to true has a weight; changing it changes nothing else.", "quantifier": "all forward, backward and symmetric trees, all nodes, all forests and all functions applied to weights", "why_tests_cant": "it is a statement about trees of every shape and depth", "anchors": ["Source/sequoia/Maths/Graph/DynamicTree.hpp: basic_tree_adaptor, root_weight, mutate_root_weight, forest_from_tree_iterator, forest_iterator"]}
{"id": "C98", "title": "The names of types do not depend on the compiler", "statement": "The names of types appear in the output of tests, which is compared with earlier output. The names which Clang, GCC and MSVC give for the same type are made into the same name: without inline namespaces and keywords, with the same name for the integers of 64 bits, without the suffixes of integers, with numbers for booleans and enumerators, and with the same blanks around brackets and commas.", "quantifier": "all types built from classes, class templates of any depth and width, fundamental types, and integers, booleans and enumerators as template arguments, and all names of classes", "why_tests_cant": "names of types can be nested to any depth, and each compiler can only be asked for its own names", "anchors": ["Source/sequoia/TestFramework/Output.hpp: tidy_name, type_demangler", "Source/sequoia/TestFramework/Output.cpp: tidy_name, process_literals, process_spans, process_array_iterators, remove_enum_spec"]}
{"id": "C99", "title": "Creating a test loses nothing, and does all that is needed", "statement": "When the files of a test are created from the command line, then, whatever happens, nothing which has been there is overwritten or lost, apart from the edits to the main files, the file with the includes and the files for CMake; new files are only put where they belong. If it succeeds, then there are all the files, with the transformed contents of the templates, and they and the tests have been made known exactly once; the source has been created if it was missing and wanted. Creating them again changes nothing; if something went wrong, it can be tried again. Nothing of the marks of the templates is left.", "quantifier": "all file systems, all paths of a project, all kinds of tests with all names, all orders in which directories are visited, and all points at which the process may be killed", "why_tests_cant": "the file systems and the points at which the process is killed cannot be enumerated", "anchors": ["Source/sequoia/TestFramework/TestCreator.cpp: nascent_test_base::finalize, create_file, build_source_path, finalize_header, set_cpp; nascent_semantics_test, nascent_behavioural_test, nascent_allocation_test", "Source/sequoia/TestFramework/TestCreator.hpp: nascent_test_base", "Source/sequoia/TestFramework/FileSystemUtilities.cpp: find_in_tree"]}
{"id": "C100", "title": "The report on a run says what was found, where it belongs", "statement": "However often tests are repeated, serially or concurrently, there is one report for each repetition, about what was found in this repetition and nothing else. In the verbose report every suite and every test is listed exactly once, a suite directly followed by what it contains, indented by one more level, in the order in which things were added; with each test come its counts and its failures. The brief report has, for each suite at the top, the sums of the counts and all the failures of the tests in it, in order. The grand totals are the sums over all tests.", "quantifier": "all trees of suites, all results of tests in all repetitions, all schedules of the threads", "why_tests_cant": "there are infinitely many trees, and results and schedules cannot be enumerated", "anchors": ["Source/sequoia/TestFramework/TestRunner.cpp: run_tests, reset_tests, execute, sort_tests, running_tests_message", "Source/sequoia/TestFramework/TestLogger.cpp: log_summary::operator+=", "Source/sequoia/TextProcessing/Indent.hpp: indentation"]}
{"id": "C101", "title": "The tests which are run are those added and selected, and what is missing is said", "statement": "Whatever suites are added to the test runner, nested to any depth, and whatever is selected by name, by file or by pruning, the tests which are run and reported are exactly those added which are selected, each below its suites; suites without such tests are left out. If two tests in a suite have the same name and the same source then they are refused. Selections which match nothing are named, with a hint if the wrong kind of selection seems to have been used. If there is nothing to do, it is said why: the runner is never silent.", "quantifier": "all suites, all selections and command lines, all results of pruning, repetitions and schedules", "why_tests_cant": "suites, selections and command lines cannot be enumerated", "anchors": ["Source/sequoia/TestFramework/TestRunner.hpp: test_runner::add_test_suite, extract_suite_tree, check_for_duplicates", "Source/sequoia/TestFramework/TestRunner.cpp: check_for_missing_tests, nothing_to_do, execute", "Source/sequoia/Core/Object/Suite.hpp: granular_filter, extract_tree"]}
{"id": "C102", "title": "Incremental testing is as good as running everything", "statement": "However a project is developed, with files being changed and created and tests run again and again, all of them or those selected by pruning, each pruned run selects every test which would fail if all of them were run, and records as failing exactly these tests. So nobody who prunes is told that all is well when it is not.", "quantifier": "all projects, all histories of changes and runs of any length, all tests whose result depends only on the files they depend upon and their materials, all time stamps", "why_tests_cant": "histories of development are unbounded, and a test of a test runner goes through a few steps of a few of them", "anchors": ["Source/sequoia/TestFramework/DependencyAnalyzer.cpp: tests_to_run, find_stale_tests, update_prune_files", "Source/sequoia/TestFramework/TestRunner.cpp: prune, update_prune_info"]}
{"id": "C103", "title": "Help on the command line tells everything about the options", "statement": "Whatever options an application has, nested to any depth, help has a line for each of them, in order and indented according to the nesting, with its name, all of its aliases and all of its parameters. Nothing is lost: different options have different help. Help which is asked for after some options is about the options within the last of them, and nothing is invoked. Messages about missing arguments name the option, its parameters and the number of arguments found; messages of several parts are aligned.", "quantifier": "all forests of options, of any size and depth, all names, aliases and parameters, all command lines which lead to an option, all messages", "why_tests_cant": "forests of options cannot be enumerated; tests compare the help of two or three of them", "anchors": ["Source/sequoia/Parsing/CommandLineArguments.cpp: argument_parser::generate_help, argument_parser::parse, error, warning, pluralize"]}
{"id": "C104", "title": "From the texts of the files to the tests which are run", "statement": "A file is taken to include precisely the files which a compiler takes for its include directives: looking first in its own directory, then in the directories of the project. A test is selected precisely if it, its materials, or a file on which it depends through includes, or through the source file that goes with a header, has changed. What is recorded as external dependencies are the names in directives which belong to no file of the project.", "quantifier": "all directory trees and texts of the files in them, all time stamps, all records of passing tests", "why_tests_cant": "projects cannot be enumerated; the test uses one fake project, in which every name is found in one place only", "anchors": ["Source/sequoia/TestFramework/DependencyAnalyzer.cpp: in_repo, is_cpp, is_header, add_files, build_dependencies, get_stale_tests"]}
{"id": "C105", "title": "Graphs and trees after a failure", "statement": "If assigning a graph, swapping or erasing nodes, or inserting a node into a tree fails part way, because memory runs out or a weight throws when copied or moved, then the exception reaches the caller and the graph is as it was before the call. If nothing fails, an assigned graph is a copy of the other, and the other operations do what they are said to do elsewhere.", "quantifier": "all graphs and trees, all operations, all points at which a failure may occur", "why_tests_cant": "a test has to make a particular allocation or copy fail; the tests of the graphs use types which do not throw, and no test runs out of memory", "anchors": ["Source/sequoia/Maths/Graph/GraphPrimitive.hpp: operator=, swap, swap_nodes, erase_node, clear, insert_node_to_tree", "Source/sequoia/Maths/Graph/NodeStorage.hpp: operator=, swap_nodes, erase_node", "Source/sequoia/Maths/Graph/Connectivity.hpp: operator=, swap_nodes, erase_node"]}
{"id": "C106", "title": "Integral types are the rings they are taken for", "statement": "An integral type which is accepted as a commutative ring satisfies the laws of commutative rings, or at least does so unless there is an overflow; unsigned types do so exactly, and bool is exactly a field. Consequently coordinates over these types satisfy the laws of modules, in any dimension. On the half line, taking away more than there is is reported.", "quantifier": "all values of all integral types of any width, for any width of int; all coordinates of any dimension", "why_tests_cant": "there are too many values, and the interplay of promotion, overflow and conversion depends on the widths; the tests use int, float, double and a few values", "anchors": ["Source/sequoia/Maths/Geometry/Spaces.hpp: weakly_abelian_group_under_addition, weakly_abelian_group_under_multiplication, weak_commutative_ring, weak_field, coordinates_base, half_line_validator"]}
{"id": "C107", "title": "Reports on strings show where they differ", "statement": "If a check of strings fails, then the report says where the first difference is, shows the characters there, and shows excerpts of both strings which contain the difference, with its context, in a single line each, with dots where and only where something is left out; if one string is longer, the first character of what is missing or in excess is named. Advice given for characters is shown.", "quantifier": "all pairs of strings of any lengths, with line breaks anywhere; all advice", "why_tests_cant": "the excerpt depends on the position of the difference, of the line breaks before and after it in both strings and on both lengths; tests compare a few reports", "anchors": ["Source/sequoia/TestFramework/ConcreteTypeCheckers.hpp: value_tester<std::basic_string_view<Char, Traits>>", "Source/sequoia/TestFramework/FreeCheckers.hpp: binary_comparison", "Source/sequoia/TestFramework/Advice.cpp: advice_data::append_to"]}
{"id": "C108", "title": "Checks with a comparison pass exactly if the comparison holds, and advisors are given what was compared", "statement": "A check of integral values for being equal, less, greater or within a tolerance passes if and only if what was obtained is as predicted. Otherwise the comparison, what was obtained and what was predicted can be read off the message, to which the advice is added, if there is any; the advisor is given the very values which were compared, and is asked whenever these can be passed on without narrowing.", "quantifier": "all integral types, of any widths, all values, comparisons, tolerances and advisors", "why_tests_cant": "differences overflow only at the ends of the ranges, and whether an advisor is used depends on pairs of types; tests use a few types and small values", "anchors": ["Source/sequoia/TestFramework/BinaryRelationships.hpp: within_tolerance, failure_reporter", "Source/sequoia/TestFramework/Advice.hpp: advisor_analyser, advice_data", "Source/sequoia/TestFramework/FreeCheckers.hpp: binary_comparison"]}
{"id": "C109", "title": "What is said about graphs which are refused is true", "statement": "If a graph is refused on construction, then the exception names an edge, or a node, of the listing and says what is wrong with it, and this is so; for directed and embedded graphs nothing listed before is at fault. Something is said if and only if the graph is refused. The kind of the fault and all indices can be read off the message. Indices given to the operations on graphs are refused if and only if they are not admissible, and the message names the greatest admissible index or the number of nodes or edges.", "quantifier": "every listing of a directed, undirected or embedded graph, all weights, all indices", "why_tests_cant": "which check fails first, and at which positions, depends on the whole listing; tests compare a few messages", "anchors": ["Source/sequoia/Maths/Graph/GraphErrors.hpp", "Source/sequoia/Maths/Graph/GraphErrors.cpp", "Source/sequoia/Maths/Graph/Connectivity.hpp: validate, visit_edges", "Source/sequoia/Maths/Graph/GraphPrimitive.hpp: check_initialization"]}
{"id": "C110", "title": "Clients of thread pools get the right answers, and everything is done once", "statement": "A client pushes functions to a thread pool and asks for their answers in any order. Whatever the schedule, each answer is that of the function it was asked of; an exception comes out where the answer is asked for; nobody waits for ever; and once the pool has been destroyed each function which was pushed has been called exactly once, whether or not its answer was wanted, and also if the client left because of an exception. Hence the test runner, when it executes tests by a pool, calls each of them once and reports the exception of the first, in the order of the tests, which throws. The other execution models give the same answers and do the same.", "quantifier": "every sequence of pushes and requests for answers, all functions, pools with any number of threads, all schedules with spurious wake-ups, all choices of std::async", "why_tests_cant": "the interleavings of client and workers are unbounded in number, and a missed wake-up shows in few of them", "anchors": ["Source/sequoia/Core/Concurrency/ConcurrencyModels.hpp: thread_pool, asynchronous", "Source/sequoia/TestFramework/TestRunner.cpp: accelerate, run_tests"]}
{"id": "C111", "title": "Meta data belong to one half of an edge, and edges can be addressed from the end", "statement": "set_edge_meta_data and mutate_edge_meta_data change the meta data of the selected half edge and nothing else: not its partner, no weight, nothing about the structure. An operation to which a reverse iterator is given acts on the edge the iterator points to. Weights can be set whatever the meta data are, and a function which changes a weight leaves both halves with the same weight.", "quantifier": "every directed, undirected and embedded graph, every edge, all meta data, functions with and without a state", "why_tests_cant": "all graphs, and all combinations of weights and meta data at a node with loops", "anchors": ["Source/sequoia/Maths/Graph/Connectivity.hpp: set_edge_meta_data, mutate_edge_meta_data, to_const_edge_iterator, manipulate_partner_edge_weight, mutate_edge_weight", "Source/sequoia/Maths/Graph/Edge.hpp: meta_data, mutate_meta_data"]}
{"id": "C112", "title": "The shell runs what was meant, and output arrives where it was meant to", "statement": "A command with a heading and a file for the output, given to a shell, runs the program with exactly the words intended, in the directory of the shell; the file then holds the heading and all the program writes, to either output, after what was there if it is to be appended; nothing else changes. Commands which are chained are run in order until one fails. In particular this is so for the commands with which projects are configured, built and placed under version control: the intended programs are run in the intended directory, and the file holds the output of all of them.", "quantifier": "every sequence of commands, all words and names of files without characters which mean something to a shell, every behaviour of programs, every state of the file system", "why_tests_cant": "the text of a command means what the grammar of the shell makes of it: numbers before a redirection, the order of redirections, blanks; tests run a few commands and compare the texts", "anchors": ["Source/sequoia/Runtime/ShellCommands.hpp: shell_command", "Source/sequoia/Runtime/ShellCommands.cpp", "Source/sequoia/TestFramework/Commands.cpp: cmake_cmd, build_cmd, build_and_run_cmd", "Source/sequoia/TestFramework/ProjectCreator.cpp: init_projects, git_first_cmd", "Source/sequoia/TestFramework/TestCreator.cpp: cmake_nascent_tests"]}
{"id": "C113", "title": "What is under version control does not depend on where the project is", "statement": "The descriptions of checks, and the messages of exceptions which are expected, name files of the project relative to it, so that the outputs of tests are the same wherever the project is. In particular the messages of the library about files which cannot be opened or are not what they should be are the same, and name the file.", "quantifier": "all places of the project, all histories of checks, all descriptions, locations and messages, all files", "why_tests_cant": "tests are run where the project happens to be; that nothing else would be written elsewhere is about all places", "anchors": ["Source/sequoia/TestFramework/FreeCheckers.hpp: default_exception_message_postprocessor, check_exception_thrown", "Source/sequoia/TestFramework/FreeTestCore.hpp: report", "Source/sequoia/TestFramework/Output.cpp: report_line, path_for_reporting", "Source/sequoia/TestFramework/FileSystemUtilities.cpp: throw_unless_exists, throw_unless_directory, throw_unless_regular_file", "Source/sequoia/Streaming/Streaming.cpp"]}
{"id": "C114", "title": "Whatever is in a suite can be extracted", "statement": "The types of the leaves of a suite are those of its items, in order, at any depth. Leaves can be extracted into the container which goes with the suite, and trees into the tree which goes with it: the type of the elements can be constructed from every item, and for trees from every suite, after they have been transformed. If everything is transformed to the same type then that is the type.", "quantifier": "all suites of any depth and width, all types of items, all transformations", "why_tests_cant": "suites are types: each test is about the suites written down in it, and those which cannot be instantiated cannot even be tested", "anchors": ["Source/sequoia/Core/Object/Suite.hpp: leaf_extractor, leaves_to_variant_or_unique_type, faithful_variant, to_variant_or_unique_type, extract_leaves, extract_tree"]}
{"id": "C115", "title": "Calibrated durations are long enough", "statement": "Calibration never shortens a duration. It changes it only if timings of it exceed it by more than their standard deviation, and then gives the first multiple of the unit which exceeds their mean by five standard deviations. The least and the greatest timing have no influence.", "quantifier": "all durations, all units, all timings", "why_tests_cant": "timings differ from run to run; a test sees a few of them, and one unit", "anchors": ["Source/sequoia/TestFramework/PerformanceTestCore.hpp: calibrate"]}
{"id": "C116", "title": "What can be done with a converted quantity depends on its unit alone", "statement": "However often a quantity is converted from one unit to another, its type and its value are determined by the last unit, and converting back restores both. A quantity can be multiplied by numbers if and only if the zero of its unit is the origin of its space, so that it makes no difference whether it is converted or multiplied first. The difference of two quantities, converted, has the type and the value of the difference of the converted quantities.", "quantifier": "all spaces, all chains of units with a common root, all values, all sequences of conversions", "why_tests_cant": "the types after conversions are computed by the compiler for each sequence of units; tests have a few of them", "anchors": ["Source/sequoia/Physics/PhysicalValues.hpp: conversion_space, relaxed_space, associated_displacement_space, default_validator_t, to_origin_type, physical_value::convert_to", "Source/sequoia/Maths/Geometry/Spaces.hpp: has_distinguished_origin"]}
{"id": "C117", "title": "The units which come with the library are what they are called", "statement": "A quantity given in any of the library's units, with or without prefixes, is converted to any other unit for quantities of this kind in accordance with the textbook definitions of both, and so are differences of quantities; units for different kinds of quantities cannot be converted into each other. A value is accepted if and only if it is physically meaningful, so that meaningful quantities can be converted as often as one likes. The space deduced from a unit is that of the quantities it measures, and the text for a quantity tells its unit.", "quantifier": "all pairs of units of the library, with any number of nested prefixes; all values; all sequences of conversions", "why_tests_cant": "prefixes are templates which can be applied to any unit, including one with a prefix, so there are infinitely many units, and for each pair of them all values are concerned", "anchors": ["Source/sequoia/Physics/PhysicalValues.hpp: micro, milli, kilo, mega, si::units, non_si::units, default_space, has_symbol_v, std::formatter<physical_value>"]}
{"id": "C118", "title": "Conversions survive rounding", "statement": "Converting floating point quantities from one unit to another preserves their order, in spite of rounding; a quantity which is valid with respect to one unit can be converted to every other unit of its kind without an exception; and the result is what it should be up to the error of a few roundings, which add up if there are several conversions.", "quantifier": "all floating point formats in which rounding is monotonic, all values, all chains of units and all sequences of conversions", "why_tests_cant": "there are too many pairs of floating point numbers, and whether a conversion throws because of rounding depends on the last bit of values which no test has a reason to choose", "anchors": ["Source/sequoia/Physics/PhysicalValues.hpp: coordinate_transformation, coordinate_transform, synthesised_validator, inverse, product, convert_to", "Source/sequoia/Maths/Algebra/Ratio.hpp: ratio, ratio_product", "Source/sequoia/Maths/Geometry/Spaces.hpp: interval_validator, half_line_validator"]}
{"id": "C119", "title": "After a crash the recovery file tells in which check it happened", "statement": "If the process dies in recovery mode, at any point within a check, the recovery file holds the description of precisely that check and its critical failures so far; the dump file holds the descriptions of all checks which have begun, in order. The last line tells whether the check was over. A test which throws is reported there together with the description of the last check. What earlier runs have left is gone.", "quantifier": "all tests, histories of checks with any nesting, messages, crash points (between events and after any number of characters written), previous contents of the files and command lines", "why_tests_cant": "the process has to die, and there are as many crash points as there are characters written; tests do not kill themselves", "anchors": ["Source/sequoia/TestFramework/TestLogger.cpp: sentinel_base, record_check_started, record_check_ended, recored_dump_started, recored_dump_ended, recored_critical_failure, log_critical_failure", "Source/sequoia/TestFramework/TestRunner.cpp: make_active_recovery_paths, recover, dump", "Source/sequoia/TestFramework/FreeTestCore.hpp: log_critical_failure"]}
{"id": "C120", "title": "Static partitioned sequences hold what they are given", "statement": "A sequence of fixed size which is divided into partitions, of equal or of different sizes, can be constructed from any lists which fit, and only from these: then each partition, its size and its elements are those of the list; assignment changes one element only, and exchanging partitions exchanges these.", "quantifier": "all numbers and sizes of partitions, lists, index types, elements and histories of assignments or exchanges", "why_tests_cant": "the sizes are template arguments, so that each test is about one combination, and tests use lists of the right lengths", "anchors": ["Source/sequoia/Core/DataStructures/StaticLinearlyPartitionedSequence.hpp: static_linearly_partitioned_sequence, make_partitions", "Source/sequoia/Core/DataStructures/PartitionedData.hpp: static_partitioned_sequence, fill, make_element, get_begin_iterator, get_end_iterator, size_of_partition", "Source/sequoia/Maths/Sequences/LinearSequence.hpp: linear_sequence, static_linear_sequence"]}
{"id": "C121", "title": "Edges as objects: which edges have their weight in common", "statement": "Every edge can be seen as a target, meta data and a weight, some edges having their weight in common. Constructing an edge from another one shares its weight if weights are shared, and copies it otherwise; moves hand the weight on; copies and copy assignments yield edges which have their weight to themselves, also if they had one in common before; changing a weight changes it for exactly those edges which have it in common; two edges are equal if and only if target, meta data and weight are.", "quantifier": "all histories of constructions, copies, moves, assignments, changes and comparisons of any number of edges, all types of weights and meta data, both kinds of handlers", "why_tests_cant": "tests check pairs of edges, one operation at a time, whereas sharing depends upon the whole history of an edge", "anchors": ["Source/sequoia/Maths/Graph/Edge.hpp: weighting, partial_edge_base, decorated_partial_edge_base, partial_edge", "Source/sequoia/Core/Object/Handlers.hpp: shared, by_value, make_shared_braced"]}
{"id": "C122", "title": "Counting allocators: what is counted, and what equality says", "statement": "allocs() and deallocs() of a shared_counting_allocator are the numbers of successful allocate and deallocate calls, for at least one object, made so far through any allocator of its family, where a copy (or what is moved to) is of the family of the original, a default constructed allocator starts a new family, and assignment moves an allocator to another family; two allocators compare equal if and only if they are of the same family; if blocks are returned to the family they came from, the difference is the number of blocks still in use; allocate(n) yields room for n objects.", "quantifier": "all histories of constructions, copies, assignments, allocations, deallocations and comparisons of any number of allocators, all sizes of objects, all ways in which memory may run out", "why_tests_cant": "tests count a few allocations of containers; which allocators share their counters depends upon the whole history", "anchors": ["Source/sequoia/TestFramework/AllocationTestUtilities.hpp: shared_counting_allocator"]}
{"id": "C123", "title": "The notice of copyright in a new file", "statement": "When a file is created from a template, the notice of copyright which is framed by // on both sides is replaced by one for the given owner and the current year; nothing outside of the frame changes; if there is room the width of the frame stays the same and the notice is centred; if there is no framed notice an exception is thrown; a file's code is never replaced; setting a notice again has the effect of setting it once.", "quantifier": "all texts, owners and years", "why_tests_cant": "tests compare the files made from a few templates for one owner", "anchors": ["Source/sequoia/TestFramework/TestRunnerUtilities.cpp: set_top_copyright"]}
{"id": "C124", "title": "Deep equality", "statement": "The concept deep_equality_comparable, by which the library decides whether edges, node storage and values in checks are compared by operator==, holds of a type just if operator== can be called and its body compiles, for the type itself and at every depth for whatever is compared; in particular it does not hold of standard containers, however nested, in which there is a class without operator== or an array.", "quantifier": "all types made of classes, arrays, containers and products, of any depth and width", "why_tests_cant": "tests assert the concept for some twenty types", "anchors": ["Source/sequoia/Core/Meta/TypeTraits.hpp: is_deep_equality_comparable, heterogeneous_deep_equality", "Source/sequoia/Core/Meta/Concepts.hpp: deep_equality_comparable", "Source/sequoia/TestFramework/FreeCheckers.hpp: check"]}
{"id": "C125", "title": "Inner products and norms of Euclidean spaces", "statement": "For coordinates of a Euclidean vector space with respect to an orthonormal basis, inner_product is symmetric, linear and positive definite, and norm is a norm which belongs to it, in any dimension; both can be called exactly for bases of the space which say that they are orthonormal, and spaces with such functions satisfy inner_product_space and normed_vector_space; the dual of a canonical basis is the canonical basis of the dual, twice over the basis itself; the arena of a space made of duals and direct products is that of its parts.", "quantifier": "all dimensions, vectors, scalars and ways of rounding; all bases; all spaces made of duals and direct products, of any depth and width", "why_tests_cant": "tests look at a handful of vectors in one and two dimensions, of a space declared by the tests, and do not ask for the concepts", "anchors": ["Source/sequoia/Maths/Geometry/Spaces.hpp: euclidean_vector_space, inner_product, dot, norm", "Source/sequoia/Maths/Geometry/Spaces.hpp: has_norm_v, has_inner_product_v, normed_vector_space, inner_product_space, canonical_right_handed_basis", "Source/sequoia/Maths/Geometry/Spaces.hpp: arena_type_of"]}
