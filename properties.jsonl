{"id": "C01", "title": "Sorting returns a sorted permutation", "statement": "After MR_GENERIC_SORT / mr_hsort on an array with a comparator that is a total preorder, the array holds exactly the same multiset of elements as before and every element compares <= 0 with each element after it.", "quantifier": "every array length and contents, every comparator that is a total preorder", "why_tests_cant": "heap shapes and duplicate patterns grow factorially with length; a boundary error in the sift loop shows only on particular sizes and orders", "anchors": ["src/mr_hsort.c:sift", "src/mr_hsort.c:mr_hsort", "src/mr_ic.c:mr_generic_sort", "src/mr_ic.c:mr_basic_types_sort"]}
{"id": "C02", "title": "Sorting never loses or reads outside elements, whatever the comparator returns", "statement": "For an arbitrary comparator (inconsistent or not transitive, e.g. the float comparator on NaN or the field-offset comparator), sorting terminates, reads and writes only indices below count, and leaves a permutation of the input.", "quantifier": "every array, every comparator function whatsoever", "why_tests_cant": "misbehaving comparators are an infinite function space", "anchors": ["src/mr_hsort.c:sift", "src/mr_hsort.c:mr_hsort", "src/metaresc.c:mr_fd_offset_cmp_sorting"]}
{"id": "C03", "title": "A bit-field that is stored can be read back", "statement": "Storing an integer into a bit-field of any width and shift and reading the field returns the integer truncated to the width, sign-extended from the top bit of the field if the declared type is signed and zero-extended otherwise.", "quantifier": "every shift 0..7, every width 1..128, every value, every previous memory content, both signednesses", "why_tests_cant": "2^128 values times all offsets and memory contents", "anchors": ["src/metaresc.c:mr_save_bitfield_value", "src/metaresc.c:mr_load_bitfield_value"]}
{"id": "C04", "title": "Storing a bit-field leaves neighbouring bits alone", "statement": "Storing a bit-field changes no bit of memory outside the field's [shift, shift+width) range and touches no byte beyond the last byte containing the field.", "quantifier": "every shift, width, value and memory content", "why_tests_cant": "a neighbour is corrupted only for particular shift/width combinations crossing byte boundaries", "anchors": ["src/metaresc.c:mr_load_bitfield_value"]}
{"id": "C05", "title": "Integer printing denotes the value and never overruns its buffer", "statement": "Every integer of up to 128 bits, signed or unsigned, is printed as canonical decimal text denoting exactly that value, and the fixed-size output buffer is never underrun.", "quantifier": "all 2^128 signed and unsigned values", "why_tests_cant": "the value space cannot be enumerated; the buffer boundary is met only by the most negative value", "anchors": ["src/mr_stringify.c:mr_uintmaxtostr", "src/mr_stringify.c:mr_ra_printf_int128_t"]}
{"id": "C06", "title": "Integer text round trip", "statement": "Parsing the text printed for an integer (mr_strtouintmax base 0) consumes exactly the printed text and gives back the value modulo 2^128; octal and hexadecimal spellings are read with C's base rules.", "quantifier": "every integer value, every following text that does not begin with a digit or letter", "why_tests_cant": "unbounded value/text space", "anchors": ["src/metaresc.c:mr_strtouintmax", "src/mr_stringify.c:mr_uintmaxtostr", "src/mr_value.c:mr_get_int"]}
{"id": "C07", "title": "JSON string round trip", "statement": "Unquoting the JSON text emitted for a C string gives back the same bytes, for every NUL-free byte string, and the emitted text has no unescaped quote.", "quantifier": "every NUL-free byte string", "why_tests_cant": "escape sequences interact with following bytes; infinitely many strings", "anchors": ["src/json_save.c", "src/json_load.y:json_unquote_str", "src/mr_stringify.c:mr_ra_printf_quote_string"]}
{"id": "C08", "title": "C-initializer string round trip", "statement": "Unquoting the C-initializer text emitted for a C string gives back the same bytes for every NUL-free byte string.", "quantifier": "every NUL-free byte string", "why_tests_cant": "an octal escape may swallow a following digit; only particular adjacent pairs fail", "anchors": ["src/cinit_save.c", "src/cinit_load.y:cinit_unquote_str", "src/mr_stringify.c:mr_ra_printf_quote_string"]}
{"id": "C09", "title": "Scheme string round trip", "statement": "Unquoting the Scheme text emitted for a C string gives back the same bytes for every NUL-free byte string.", "quantifier": "every NUL-free byte string", "why_tests_cant": "infinitely many strings; variable-length hex escapes", "anchors": ["src/scm_save.c", "src/scm_load.y:scm_unquote_str", "src/mr_stringify.c:mr_ra_printf_quote_string"]}
{"id": "C10", "title": "XML text round trip", "statement": "Unquoting the XML text emitted for a C string gives back the same bytes for every NUL-free byte string, and the emitted text contains no raw '<' or '>' or quote.", "quantifier": "every NUL-free byte string", "why_tests_cant": "infinitely many strings; entity matching depends on following bytes", "anchors": ["src/xml_save.c:xml_ra_printf_quote_char", "src/xml_save.c:xml_unquote_string"]}
{"id": "C11", "title": "Growing an output buffer preserves its contents", "statement": "Any sequence of appends to a resizable array leaves the earlier bytes unchanged, returns the address of exactly the fresh zone, keeps size <= allocated size, and a failed allocation leaves the array as it was.", "quantifier": "every sequence of append sizes, every pattern of allocation failures", "why_tests_cant": "histories of appends and failures are unbounded", "anchors": ["src/metaresc.c:mr_rarray_allocate_element", "src/metaresc.c:mr_rarray_append"]}
{"id": "C12", "title": "Indexed collection on an unsorted array behaves as a set", "statement": "For MR_IC_UNSORTED_ARRAY, after any sequence of add/del/find the collection behaves as a finite set keyed by the comparator: add of an equal key returns the stored one, del removes it, find succeeds exactly for stored keys, foreach visits every element once.", "quantifier": "every history of operations, every comparator that is an equivalence on equality", "why_tests_cant": "operation histories are unbounded", "anchors": ["src/mr_ic.c:mr_ic_unsorted_array_add"]}
{"id": "C13", "title": "Indexed collection on a sorted array behaves as a set", "statement": "Same contract as C12 for MR_IC_SORTED_ARRAY with a hash/comparator key order, and the stored array is always strictly increasing so that iteration order is deterministic.", "quantifier": "every history, every hash function and comparator that is a total order on keys", "why_tests_cant": "binary-search boundaries depend on size and position", "anchors": ["src/mr_ic.c:mr_ic_sorted_array_find_idx", "src/mr_ic.c:mr_ic_sorted_array_add", "src/mr_ic.c:mr_ic_sorted_array_del", "src/mr_ic.c:mr_ic_sorted_array_index"]}
{"id": "C14", "title": "Small-collection optimisation is invisible", "statement": "MR_IC_STATIC_ARRAY behaves as the same set before, at and after the point where it overflows its inline storage and converts to a sorted array.", "quantifier": "every history of operations", "why_tests_cant": "the conversion point combined with arbitrary histories", "anchors": ["src/mr_ic.c:mr_ic_static_array_add", "src/mr_ic.c:mr_ic_static_array_del"]}
{"id": "C15", "title": "Indexed collection on a hash table behaves as a set", "statement": "Same contract as C12 for MR_IC_HASH: open addressing with deletion never loses or duplicates an element, lookups always terminate, whatever the hash values.", "quantifier": "every history, every hash function consistent with the comparator (including constant hash and hash collisions with wrap-around)", "why_tests_cant": "deletion in linear probing fails only for particular cluster layouts", "anchors": ["src/mr_ic.c:mr_ic_hash_index_add", "src/mr_ic.c:mr_ic_hash_add", "src/mr_ic.c:mr_ic_hash_del", "src/mr_ic.c:mr_ic_hash_find"]}
{"id": "C16", "title": "Red-black tree collection behaves as a set and stays valid", "statement": "For MR_IC_RBTREE, after any sequence of add/del the tree validator mr_rbtree_is_valid accepts, and find/add/del/foreach behave as a finite set ordered by the comparator.", "quantifier": "every history, every total order", "why_tests_cant": "rebalancing cases and slot compaction interact over unbounded histories", "anchors": ["src/mr_btree.c:mr_rbtree_add", "src/mr_btree.c:mr_rbtree_del", "src/mr_btree.c:mr_rbtree_is_valid", "src/mr_btree.c:mr_tree_del"]}
{"id": "C17", "title": "AVL tree collection behaves as a set and stays valid", "statement": "For MR_IC_AVLTREE, after any sequence of add/del the tree validator mr_avltree_is_valid accepts, and find/add/del/foreach behave as a finite set ordered by the comparator.", "quantifier": "every history, every total order", "why_tests_cant": "double-rotation balance cases over unbounded histories", "anchors": ["src/mr_btree.c:mr_avltree_add", "src/mr_btree.c:mr_avltree_del", "src/mr_btree.c:mr_avltree_is_valid", "src/mr_btree.c:avl_rebalance_add", "src/mr_btree.c:avl_rebalance_del"]}
{"id": "C18", "title": "The fixed-size traversal path never overflows", "statement": "In any reachable RB or AVL tree, whose nodes are addressed with 31-bit indices, the root-to-leaf path recorded by find/add/del/next never exceeds the fixed number of path entries.", "quantifier": "every reachable tree", "why_tests_cant": "worst-case heights need up to 2^31 nodes to exercise", "anchors": ["src/mr_btree.c:mr_tree_find", "src/mr_protos.h:mr_tree_traverse_t"]}
{"id": "C19", "title": "Iteration visits every element exactly once in key order", "statement": "Walking a tree collection (foreach) or advancing a cursor with mr_tree_next visits every stored element exactly once in increasing key order.", "quantifier": "every tree shape and size", "why_tests_cant": "unbounded shapes", "anchors": ["src/mr_btree.c:mr_tree_walk", "src/mr_btree.c:mr_tree_next"]}
{"id": "C20", "title": "Deletion with slot compaction does not disturb other elements", "statement": "Deleting an element from a tree moves the last storage slot into the freed one without changing the set or order of the remaining elements, even if the moved slot is an ancestor, child or sibling of the deleted node.", "quantifier": "every tree, every deleted key", "why_tests_cant": "aliasing between deleted node, its successor and the last slot depends on insertion history", "anchors": ["src/mr_btree.c:mr_tree_del"]}
{"id": "C21", "title": "All collection kinds are interchangeable", "statement": "The same sequence of add/del/find calls gives the same results (which stored element is returned, success or failure, item count) for unsorted array, sorted array, static array, hash, RB tree and AVL tree.", "quantifier": "every history", "why_tests_cant": "unbounded histories over six implementations", "anchors": ["src/mr_ic.c", "src/mr_ic.h"]}
{"id": "C22", "title": "Enum lookup by value and by name is exact", "statement": "mr_get_enum_by_value finds a constant of the enumeration if and only if some constant has that value; the printed name of a known value parses back to that value.", "quantifier": "every enum table, every value", "why_tests_cant": "binary-search boundaries; arbitrary tables", "anchors": ["src/metaresc.c:mr_get_enum_by_value", "src/metaresc.c:mr_init_enum", "src/metaresc.c:mr_get_enum_by_name", "src/mr_stringify.c:mr_ra_printf_enum"]}
{"id": "C23", "title": "Bit-mask enum text round trip", "statement": "The text printed for any value of a bit-mask enum ('A|B|5') evaluates, by OR of its parts, to the same value.", "quantifier": "every bit-mask table accepted at initialisation, every value", "why_tests_cant": "2^64 values times tables", "anchors": ["src/mr_stringify.c:mr_ra_printf_bitmask", "src/mr_value.c:mr_load_bitmask"]}
{"id": "C24", "title": "XDR integers round trip in 4-byte units", "statement": "Every scalar is encoded to a multiple of four bytes (big-endian words) and decodes to the same value, consuming exactly the bytes encoded.", "quantifier": "every 8/16/32/64/128-bit value and any following bytes", "why_tests_cant": "value space", "anchors": ["src/xdr.c:xdr_int8", "src/xdr.c:xdr_int64", "src/xdr.c:xdr_uint128_t", "src/xdr.c:xdrra_putlong"]}
{"id": "C25", "title": "XDR strings round trip, NULL distinct from empty", "statement": "A string or character array of any content is encoded with its length and zero padding and decodes to identical bytes; NULL and the empty string stay distinct; a truncated stream is reported as failure.", "quantifier": "every byte string, every truncation point", "why_tests_cant": "infinitely many strings and cut points", "anchors": ["src/xdr.c:xdr_save_string", "src/xdr.c:xdr_load_string", "src/xdr.c:xdr_char_array_"]}
{"id": "C26", "title": "XDR save/load of an object graph is the identity up to isomorphism", "statement": "Saving any object graph to XDR and loading it gives an object graph isomorphic to the original: same scalars, strings, NULLs, lengths, and the same sharing and cycles.", "quantifier": "every finite heap graph of the modelled types", "why_tests_cant": "graphs with arbitrary sharing/cycles are unbounded", "anchors": ["src/xdr.c:mr_xdr_save", "src/xdr.c:mr_xdr_load", "src/xdr.c:mr_set_crossrefs"]}
{"id": "C27", "title": "Child nodes keep insertion order", "statement": "Adding nodes to the serialization tree with mr_add_child in the order of a document (parent before children, depth first) or bottom-up (each subtree completed before it is attached) makes every added node reachable from its parent exactly once and children are listed in insertion order. For any other order this holds for an addition exactly when the node added last is not below an earlier child of the same parent; otherwise siblings get lost.", "quantifier": "every sequence of additions in document order or bottom-up order; the exact condition for every other addition", "why_tests_cant": "the cached last child is only wrong for particular orders", "anchors": ["src/metaresc.c:mr_add_child", "src/metaresc.c:mr_last_child_for_parent"]}
{"id": "C28", "title": "Depth-first traversal is complete and properly nested", "statement": "mr_ptrs_dfs started at the root of a tree or at any node with children visits every node of that (sub)tree exactly once before and once after its children, with correct nesting level, visits no other node, and stops at the first failing callback. (Started at a leaf that is not a root it leaves the subtree.)", "quantifier": "every tree, every start node, every callback that does not change links of nodes still to be visited", "why_tests_cant": "tree shapes are unbounded", "anchors": ["src/mr_save.c:mr_ptrs_dfs_impl"]}
{"id": "C29", "title": "Printed node ids are unique and dense", "statement": "After save, node ids are 1,2,3,... in traversal order without repetition, so each printed reference names one node.", "quantifier": "every saved tree", "why_tests_cant": "unbounded trees", "anchors": ["src/mr_save.c:mr_renumber_node", "src/mr_save.c:mr_post_process"]}
{"id": "C30", "title": "Deep copy is isomorphic to and disjoint from the source", "statement": "MR_COPY_RECURSIVELY produces a graph isomorphic to the source (including sharing, cycles and interior pointers), all of whose reachable memory is freshly allocated.", "quantifier": "every finite heap graph", "why_tests_cant": "graph space", "anchors": ["src/mr_extra.c:mr_copy_recursively"]}
{"id": "C31", "title": "Recursive free releases every owned block exactly once", "statement": "MR_FREE_RECURSIVELY frees each distinct allocated block reachable from the root exactly once, never the root object itself and never an interior pointer.", "quantifier": "every finite heap graph with arbitrary sharing", "why_tests_cant": "double free shows only with particular sharing", "anchors": ["src/mr_extra.c:mr_free_recursively"]}
{"id": "C32", "title": "Structural comparison is an order and equal copies hash equally", "statement": "MR_CMP_STRUCTS returns 0 on a deep copy, is antisymmetric and transitive on NaN-free data; MR_HASH_STRUCT depends only on the serialized content, so copies have the same hash.", "quantifier": "every pair/triple of objects", "why_tests_cant": "pairs and triples of objects are unbounded", "anchors": ["src/mr_extra.c:mr_cmp_structs", "src/mr_extra.c:mr_hash_struct"]}
{"id": "C33", "title": "Expression arithmetic in loaded documents", "statement": "A numeric expression in a C-initializer document (numbers, enum names, signs, + - * / % | & ^, parentheses, with * / % binding tighter than + -, these tighter than | & ^, from left to right) is read as its exact integer value whenever this and all intermediate results fit into 128 bits and no divisor is zero; mixed operands are promoted to the widest kind; a division or remainder by zero is reported by the operation as failure and never executed; an expression with an unknown name is never read as a number.", "quantifier": "every pair of operand values and kinds", "why_tests_cant": "value space", "anchors": ["src/mr_value.c:mr_value_add", "src/mr_value.c:mr_value_div", "src/mr_value.c:mr_value_cast"]}
{"id": "C34", "title": "Type registration precedence is deterministic", "statement": "Descriptors registered in any order are all kept; after initialisation looking up a type name gives the descriptor of the highest-priority producer that declared it and, inside one producer, the one registered last; a name nobody declared is not found.", "quantifier": "every list of registered types", "why_tests_cant": "permutations", "anchors": ["src/metaresc.c:mr_sort_td", "src/metaresc.c:mr_conf_init"]}
{"id": "C35", "title": "Parser error locations are exact", "statement": "The line and column reported after consuming any text equal one plus the number of newlines, and the distance from the last newline.", "quantifier": "every consumed text and every split into tokens", "why_tests_cant": "unbounded texts", "anchors": ["src/lexer.h:mr_calc_lloc"]}
{"id": "C36", "title": "Multi-dimensional arrays are saved with their declared shape", "statement": "Saving an array T[d0][d1].. visits each of its elements exactly once, in order, at its own address; loading stores each value of the document at the address of its element and never outside of the array; an array with a size field is saved up to the elements that fit into the announced size.", "quantifier": "all shapes up to the supported number of dimensions", "why_tests_cant": "shape space; only square shapes are tested in the repo", "anchors": ["src/mr_save.c:mr_save_array", "src/mr_load.c:mr_load_array"]}
{"id": "C37", "title": "XML stream reader splits one document", "statement": "On a stream that starts with a document (a prolog <?..?> and one element, with white space around the prolog) mr_read_xml_doc returns exactly that document and leaves the stream right behind it, whatever follows; on any other stream it returns NULL or the bytes it consumed, which end in '>' and hold no NUL; it never looks ahead and never writes outside its buffer, whatever allocation fails.", "quantifier": "every byte stream below 2^30 bytes, every document, every pattern of allocation failures", "why_tests_cant": "unbounded streams", "anchors": ["src/metaresc.c:mr_read_xml_doc"]}
{"id": "C38", "title": "Type-name normalisation", "statement": "Type-name normalisation gives the words of the declaration that are not type qualifiers, separated by single blanks; it is idempotent on texts whose white space is blanks and tabs; k stars behind a type name are recognised as k pointer levels; declared array bounds are extracted exactly; nothing outside the string is read.", "quantifier": "every type-name string", "why_tests_cant": "unbounded strings", "anchors": ["src/metaresc.c:mr_normalize_type", "src/metaresc.c:mr_type_is_a_pointer", "src/metaresc.c:mr_type_is_an_array"]}
{"id": "C39", "title": "Library initialisation runs once under concurrency", "statement": "Whatever the interleaving of threads calling the API first, the type tables are built by exactly one thread, each part once; every call returns only after the tables are complete and visible to its thread; afterwards nothing is built again; no call can get stuck. This holds on machines with first-in-first-out store buffers (x86); it fails on machines that may swap stores.", "quantifier": "every number of threads, every number of calls, every schedule and every delay of the store buffers", "why_tests_cant": "schedules are unbounded", "anchors": ["src/metaresc.c:mr_conf_init"]}
{"id": "C40", "title": "Removing empty nodes keeps the rest of the tree", "statement": "The save post-processing that drops empty container nodes removes exactly the members of structures and unions that have no content (recursively), keeps the order and all other data of the remaining nodes, and leaves the ids dense.", "quantifier": "every tree", "why_tests_cant": "unbounded trees", "anchors": ["src/mr_save.c:mr_remove_empty_node"]}
{"id": "C41", "title": "Enumeration tables are sorted before use", "statement": "After type initialisation every enum table is sorted by value, whatever the declaration order, so that lookup by value is exact also for duplicate and negative values.", "quantifier": "every declared enum", "why_tests_cant": "arbitrary tables", "anchors": ["src/metaresc.c:mr_init_enum"]}
{"id": "C42", "title": "Serialization terminates on cyclic data and saves each object once", "statement": "MR_SAVE terminates on every finite heap graph including cyclic ones. The result is a tree of nodes in which every object that can be reached from the saved one has a node with its address and type, the children of a structure or array are its components in order, and a pointer or string has its target as child or refers to the node of its target. If no object is embedded into a structure that can be reached from it, every object that is not itself a pointer or bit field is saved as exactly one node, and all pointers to it lead to that node.", "quantifier": "every finite heap graph, every table of types", "why_tests_cant": "graph space", "anchors": ["src/mr_save.c:mr_save", "src/mr_save.c:mr_save_inner", "src/mr_save.c:resolve_matched", "src/mr_save.c:resolve_pointer", "src/mr_save.c:move_nodes_to_parent", "src/mr_save.c:mr_save_pointer_content"]}
{"id": "C43", "title": "A JSON document is read back as the tree that was written", "statement": "Saving any tree of nodes as JSON gives a text that the JSON reader accepts, and the reader builds the same tree: the same structure, arrays, member names, NULLs, integers, floating point texts, strings (with any characters) and references, whose numbers are the positions of their targets in the document; and a text has only one meaning. (Minus zero printed as -0 loses its sign.)", "quantifier": "every tree of structures, unions, arrays, pointers and scalars with writable values, every text", "why_tests_cant": "unbounded trees and strings; escaping, tokenization and grammar interact", "anchors": ["src/json_save.c mr_json_save", "src/json_load.l", "src/json_load.y"]}
{"id": "C44", "title": "Hash-table storage never fills up", "statement": "In every reachable hash collection there is at least one free probe slot, so that an unsuccessful lookup always terminates.", "quantifier": "every history", "why_tests_cant": "termination for all histories", "anchors": ["src/mr_ic.c:mr_ic_hash_reindex", "src/mr_ic.c:mr_ic_hash_find"]}
{"id": "C45", "title": "Unquoting arbitrary text stops within its buffer", "statement": "Whatever bytes a string token of a JSON, C-initializer, Scheme or XML document contains (including malformed escapes), unquoting it terminates, reads nothing behind the document and stores at most as many bytes as the token has, so the buffer sized from the token is never overrun.", "quantifier": "all documents and all token positions/lengths inside them", "why_tests_cant": "The set of malformed escapes and their contexts is infinite; a single unterminated numeric reference is enough to loop forever.", "anchors": ["src/json_load.y:json_unquote_str", "src/cinit_load.y:cinit_unquote_str", "src/scm_load.y:scm_unquote_str", "src/xml_save.c:xml_unquote_string"]}
{"id": "C46", "title": "A serialized text is complete or absent", "statement": "Starting from an empty text, after any sequence of character, string and formatted appends with any pattern of allocation failures, either every append reported its length and the text is exactly the concatenation of the pieces followed by one NUL, or some append reported failure and the text is NULL; a truncated text is never left behind.", "quantifier": "all sequences of appended pieces and all patterns of allocation failures", "why_tests_cant": "failure points and append histories are unbounded", "anchors": ["src/mr_stringify.c:mr_ra_append_char", "src/mr_stringify.c:mr_ra_append_string", "src/mr_message.c:mr_ra_printf"]}
{"id": "C47", "title": "Collections survive memory failure", "statement": "Whatever allocation requests fail, every call on an indexed collection either does what the set contract says, or is an add returning NULL or a del returning failure that leaves the stored set unchanged; later calls keep working.", "quantifier": "every collection kind, every history, every pattern of allocation failures", "why_tests_cant": "failure points multiply with histories; tests rarely inject failures at all", "anchors": ["src/mr_ic.c:mr_ic_hash_add", "src/mr_ic.c:mr_ic_sorted_array_add", "src/mr_ic.c:mr_ic_unsorted_array_del", "src/mr_ic.c:mr_ic_static_array_add"]}
{"id": "C48", "title": "The tree validators can be trusted", "statement": "On any node array, however corrupted, mr_rbtree_is_valid / mr_avltree_is_valid answer without reading or writing outside their buffers; if they accept, walks and cursors list the elements in strictly increasing order and all further add/del/find calls behave as on that set.", "quantifier": "every content of the node array up to the index range, every comparator", "why_tests_cant": "corrupt inputs are unbounded; acceptance must imply correct behaviour for all later histories", "anchors": ["src/mr_btree.c:mr_tree_is_valid", "src/mr_btree.c:mr_rbtree_is_valid", "src/mr_btree.c:mr_avltree_is_valid"]}
{"id": "C49", "title": "Strings that share their text are written before they are referred to", "statement": "After mr_reorder_strings the text of strings that share one text is held by the first of them in document order; every other string and every pointer to the text refers to that string, so no document refers forward to a text. The shape of the tree, ids and types do not change.", "quantifier": "every saved tree in which nodes that refer to a text refer to a string of the tree that holds it", "why_tests_cant": "unbounded trees and sharing patterns", "anchors": ["src/mr_save.c:mr_reorder_strings", "src/mr_save.c:mr_reorder_strings_visitor"]}
{"id": "C50", "title": "Anonymous unions become types of their own", "statement": "For every declaration with anonymous unions, in any place and nested in each other, initialisation leaves the structure with exactly its own members in declared order, each union as one member, and gives every union a type of its own with exactly its own members, its own distinct name, the size of its largest field and offsets such that path offsets add up; nothing outside the declaration is touched.", "quantifier": "every well-formed declaration (at most 16 levels and 1000 records)", "why_tests_cant": "all nestings and orders of members", "anchors": ["src/metaresc.c:mr_anon_unions_extract", "src/metaresc.c:mr_init_struct"]}
{"id": "C51", "title": "Any bytes can be loaded from XDR safely", "statement": "MR_LOAD_XDR of an arbitrary byte string ends, with success or failure, and reads and writes only the destination object, the document and blocks it allocated itself; no other object of the program changes.", "quantifier": "every document, every type without arrays, every allocator including failing ones", "why_tests_cant": "the set of malformed documents is unbounded; fuzzing samples it", "anchors": ["src/xdr.c:mr_xdr_load", "src/xdr.c:xdr_load_inner", "src/xdr.c:xdr_load_pointer", "src/xdr.c:xdr_load_string", "src/xdr.c:mr_set_crossrefs"]}
{"id": "C52", "title": "Filling an object from a document is safe and a failure releases everything", "statement": "Loading a parsed document into an object (MR_LOAD_JSON and the other text formats) ends and accesses only memory in use.  If it fails, everything allocated on the way is released, nothing outside of the object has changed, and no pointer or string of the object is left dangling.  If it succeeds, every block allocated is the target of exactly one pointer or string of the result, and all pointers lead into the object or into new blocks.", "quantifier": "every accepted document, every type, every conversion of values, every allocator including failing ones, every point of failure", "why_tests_cant": "documents, types and points of failure are unbounded; leaks and dangling pointers occur only for some combinations", "anchors": ["src/mr_load.c:mr_load", "src/mr_load.c:mr_load_pointer_postponed", "src/mr_load.c:mr_set_crossrefs", "src/mr_load.c:mr_load_string", "src/mr_load.c:mr_load_struct", "src/mr_load.c:mr_load_array", "src/json_load.y", "src/metaresc.h:MR_LOAD_METHOD_ARGS4_"]}
{"id": "C53", "title": "An object filled from a document is what the document says", "statement": "After a document was loaded into an object without a failure, members of structures were found by their names (or one after another if they have none), elements of arrays and of what pointers lead to are in the order of the document, every value has the bytes its conversion gives, bit fields have the lowest bits of the value, texts are in blocks of their own with a zero at the end, null is NULL, numbers in place of objects lead to the object with this number, negative numbers to the text or object of the node with the opposite number, and everything the document does not mention is zero.", "quantifier": "every accepted document, every type, every conversion of values, every allocator", "why_tests_cant": "documents and types are unbounded; a value can be stored at a wrong place, into a neighbour's bits or be overwritten later by a reference only for some combinations", "anchors": ["src/mr_load.c:mr_load", "src/mr_load.c:mr_load_struct", "src/mr_load.c:mr_load_array", "src/mr_load.c:mr_load_string", "src/mr_load.c:mr_load_bitfield", "src/mr_load.c:mr_load_pointer", "src/mr_load.c:mr_load_pointer_postponed", "src/mr_load.c:mr_set_crossrefs", "src/json_load.y"]}
{"id": "C54", "title": "A graph saved in JSON and loaded again is the same graph", "statement": "Saving an object with MR_SAVE_JSON gives a text that MR_LOAD_JSON accepts, and loading it in any memory, with any allocator, into a zeroed object of the same type gives an isomorphic object graph: the same shape and sharing (including cycles, pointers into the middle of structures, shared texts, void pointers to saved objects), the same values of all numbers, bit fields, enums, texts and functions; nothing is allocated that is not part of the graph, and nothing else is changed. Loading succeeds if there is enough memory. If it fails, everything is released.", "quantifier": "every type table, every object graph of these types, every allocator and memory of the loading program", "why_tests_cant": "graphs, types and sharing patterns are unbounded; a lost or misdirected reference, or a member taken for another one, shows only for some shapes", "anchors": ["src/metaresc.h:MR_SAVE_JSON", "src/metaresc.h:MR_LOAD_JSON", "src/metaresc.c:mr_save", "src/metaresc.c:mr_remove_empty_nodes", "src/json_save.c:json_pre_print_node", "src/json_load.y", "src/mr_load.c:mr_load", "src/mr_load.c:mr_set_crossrefs"]}
{"id": "C55", "title": "A document that fits the type is loaded if there is enough memory", "statement": "If the names, types, values, numbers of elements and texts of a parsed document are those of the type of the object that is filled, and the allocator has memory for as many blocks as the document has nodes, each as large as the largest object, then loading succeeds: no valid document is rejected.", "quantifier": "every document that fits, every type, every allocator with enough memory, every conversion of values", "why_tests_cant": "documents, types and allocators are unbounded; a rejected valid document shows only for some combination of order of members, references and sizes", "anchors": ["src/mr_load.c:mr_load", "src/mr_load.c:mr_load_struct", "src/mr_load.c:mr_load_array", "src/mr_load.c:mr_load_string", "src/mr_load.c:mr_load_pointer", "src/mr_load.c:mr_load_pointer_postponed", "src/mr_load.c:mr_set_crossrefs"]}
{"id": "C56", "title": "An XML document is read back as the tree that was written", "statement": "Saving any tree of nodes as XML gives a text that the XML reader accepts, and the reader builds the same tree: the same nesting and order, the same names, NULL marks, numbers and strings (with any characters), the same references and marked targets with the same numbers, so that every reference leads to the node read for its target; and a text has only one meaning. (A document from elsewhere in which a reference has children makes the reader read outside of its array of nodes; an empty reference number is taken for 0.)", "quantifier": "every tree of structures, unions, arrays, pointers and scalars with writable values, every text", "why_tests_cant": "unbounded trees and strings; escaping, white space, tokenization and grammar interact", "anchors": ["src/xml_save.c mr_xml1_save", "src/xml1_load.l", "src/xml1_load.y"]}
{"id": "C57", "title": "A C initializer is read back as the tree that was written", "statement": "Saving any tree of nodes as a C initializer gives a text that the reader accepts, and the reader builds the same tree: the same nesting and order, the same field names, type casts of pointers, NULL marks, numbers, characters and strings, the same references and marked targets with the same numbers, so that every reference leads to the node read for its target; and a text has only one meaning. (A field named like a reserved word, such as i, gives a document that cannot be read; an enumeration constant named like one is read as a number; the smallest 128-bit integer overflows when it is read.)", "quantifier": "every tree of structures, unions, arrays, pointers and scalars with writable values, every text", "why_tests_cant": "unbounded trees and strings; escaping, comments with attributes, casts, expressions, tokenization and grammar interact", "anchors": ["src/cinit_save.c mr_cinit_save", "src/cinit_load.l", "src/cinit_load.y"]}
{"id": "C58", "title": "A Scheme document is read back as the tree that was written", "statement": "Saving any tree of nodes as a Scheme document gives a text that the reader accepts, and the reader builds the same tree: the same nesting and order, the same field names, nil marks, numbers, characters and strings, the same references and marked targets with the same numbers, so that every reference leads to the node read for its target; and a text has only one meaning. (Exceptions: a field named t, nil, nan or inf, and a non-NULL pointer without a saved target, give documents that cannot be read; the negative zero loses its sign; false and NULL are both nil.)", "quantifier": "every tree of structures, unions, arrays, pointers and scalars with writable values, every text", "why_tests_cant": "unbounded trees and strings; line breaks and indentation are decided from the end of the text written so far; white space is a token of the grammar; attributes are comments", "anchors": ["src/scm_save.c mr_scm_save", "src/scm_load.l", "src/scm_load.y"]}
{"id": "C59", "title": "A YAML document is read back as the tree that was written", "statement": "Saving any tree of nodes as a YAML document is accepted, and reading the document's events builds the same tree without undefined behaviour: the same nesting and order, the same field names, texts of values and NULL marks, the same references and marked targets with the same numbers, also for targets that are themselves written as an alias and so carry no anchor; every reference leads to the node read for its target and to no other. (Exception: a foreign document with the anchor ref_idx_4294967295 makes the reader write out of bounds.)", "quantifier": "every tree of structures, unions, arrays, pointers and scalars with values libyaml accepts, numbered as mr_save does", "why_tests_cant": "unbounded trees, any sharing and cycles between nodes, any pattern of NULL pointers that are targets of references", "anchors": ["src/yaml_save.c mr_yaml_save", "src/yaml_load.c mr_yaml_load add_missed_crossrefs"]}
{"id": "C60", "title": "Reading any YAML document is memory safe", "statement": "Whatever events the YAML parser reports, well formed for Metaresc or not, the reader has no undefined behaviour, provided there are fewer than 2^31 events and no anchor is read as ref_idx_ with an index of 2^31 or more (documents whose anchors do not start with ref_idx_ in particular); a document that is accepted leaves one value for each node and links that lead to nodes, parents before children, siblings after, so that every walk ends. (Exception: the anchors ref_idx_4294967295 and ref_idx_-1 make the reader write out of bounds.)", "quantifier": "every list of events, every set of known field names", "why_tests_cant": "unbounded documents with arbitrary nesting, aliases to anything, errors at any place", "anchors": ["src/yaml_load.c mr_yaml_load add_missed_crossrefs yaml_add_node", "src/metaresc.c mr_add_child mr_last_child_for_parent"]}
{"id": "C61", "title": "A tree of libxml2 nodes is read back as the tree that was written, and any tree is read safely", "statement": "MR_SAVE_XML2 turns every tree of nodes that can be written (references with a target, ASCII strings, 32-bit public indices) into element nodes from which MR_LOAD_XML2_NODE builds the same tree: one node for each node, in document order, below the same parent in the same order, with the same name, reference marks, public indices, NULL mark and value; references lead to the node read for their target. Whatever tree of elements is given to the reader, it ends without touching memory outside of its array, and either refuses the tree or leaves one node for every element, linked as the elements are.", "quantifier": "every tree of nodes, every value in the stated classes, every set of known field names; for reading: every finite tree of elements with any names, properties and texts", "why_tests_cant": "unbounded trees and recursion; the last child is searched from a cached child in a subtree that is not linked yet", "anchors": ["src/xml2_load.c mr_xml2_load mr_load_xml_property", "src/xml_save.c mr_xml2_save xml2_save_node", "src/metaresc.c mr_add_child mr_last_child_for_parent mr_strtouintmax", "src/metaresc.h MR_SAVE_XML2 MR_LOAD_XML2_NODE"]}
{"id": "C62", "title": "Overrides of a union get the type of its discriminator", "statement": "When the types are registered, every override of a union field that was declared without a type gets the type of the discriminator named for the field, if all members with this name, in the structure with the union or, where a structure has none, in the structures that have fields, pointers or arrays of its type, have one and the same type. If there is no such member, or two of them have different types, nothing changes. Types that were given explicitly, values and everything else stay as they are, and the search ends without undefined behaviour for every set of types, recursive ones included.", "quantifier": "every set of type descriptors, with any recursion among them; every field and every list of overrides", "why_tests_cant": "The result depends on reachability in the graph of all types, with cycles; tests have a few fixed types.", "anchors": ["src/mr_udo_init.c:mr_udo_init", "src/mr_udo_init.c:mr_udo_dfs", "src/mr_udo_init.c:mr_udo_detect_types", "src/mr_udo_init.c:mr_udo_build_ref_graph"]}
{"id": "C63", "title": "The member of a union that is saved does not depend on what was saved before", "statement": "The member of a union that is saved is the one selected by the discriminator in the nearest object around the union that has a member with that name, or the first member if there is no such object or it selects none. That results are remembered and used again for other unions, and that nodes which were saved through a pointer are moved into the object they turn out to be a part of, does not change this. The search ends and accesses existing nodes only.", "quantifier": "every set of types and values of discriminators; every history of saved objects, resolved unions and moved nodes", "why_tests_cant": "Which results are remembered where depends on the order of everything saved before; tests have a few fixed orders.", "anchors": ["src/mr_save.c:mr_union_discriminator", "src/mr_save.c:mr_ud_find", "src/mr_save.c:mr_ud_add", "src/mr_save.c:mr_check_ud", "src/mr_save.c:move_nodes_to_parent"]}
{"id": "C64", "title": "The value of a discriminator selects the member of the union", "statement": "A discriminator may be a number, an enumeration, a bit field or a text, a pointer to one of these, an array of these, or a structure that begins with one of these, to any depth. Its value selects the member of the union: the member given for the value by an override; otherwise the member with this number, or with the name that is the text of the enumeration value or the text itself; otherwise the first member. The search for the value ends for every set of types, with types that contain pointers to themselves too.", "quantifier": "every set of types, every discriminator field, every content of the object, every union with overrides", "why_tests_cant": "Types may be nested to any depth and lead in circles, and the values of discriminators are all numbers.", "anchors": ["src/mr_save.c:mr_union_discriminator_by_type", "src/mr_save.c:mr_union_discriminator_by_idx", "src/mr_save.c:mr_union_discriminator_by_name", "src/mr_save.c:mr_ud_override_value", "src/metaresc.c:mr_type_is_union_discriminator"]}
{"id": "C65", "title": "Size fields of resizable arrays", "statement": "A pointer or an array of a structure may name, by name or by offset, another field of the nearest enclosing structure that holds its size in bytes. Saving covers exactly the number of elements that the size field says (for an array never more than it has, none for a negative size); without a size field a pointer has one element. Loading a pointer writes the size in bytes of what was loaded to that field, provided its type can hold it, and changes no other data, so that saving again covers the same elements.", "quantifier": "every graph of objects, every position of the pointer, every structure, every integer type and enumeration and pointers to them as size field, every content of memory, every number and size of elements", "why_tests_cant": "The field is searched among any number of fields and enclosing objects, and its value ranges over all integers of all types.", "anchors": ["src/mr_save.c:mr_assign_int", "src/mr_save.c:mr_get_fd_by_offset", "src/mr_save.c:mr_pointer_get_size_ptrdes", "src/mr_save.c:mr_save_pointer", "src/mr_save.c:mr_save_array", "src/mr_load.c:mr_pointer_set_size"]}
{"id": "C66", "title": "A printed value is the whole document", "statement": "Printing a structure, an array or what a pointer leads to prints, for a pointer, its address (and in the C notation its type) in full, followed by the complete document that saving the value gives, without the final line feed; NULL, unknown types and failures of the writer are printed as '(null)' or as the address. Nothing else of the document is dropped.", "quantifier": "every address, every name of a type, every tree of values and every document of the JSON, C, XML and Scheme writers", "why_tests_cant": "The code removes the last character of the document whatever it is and formats into a buffer of a computed size; that the character is a line feed and that the buffer suffices must hold for all values, types and addresses.", "anchors": ["src/mr_print.c:mr_print_pointer", "src/json_save.c:mr_json_save", "src/cinit_save.c:mr_cinit_save", "src/xml_save.c:mr_xml1_save", "src/scm_save.c:mr_scm_save"]}
{"id": "C67", "title": "Fields are found where they are", "statement": "Each way of describing a structure (macros, MR_ADD_TYPE, debugging information) records the true position and width of every bit-field; MR_ADD_TYPE also records the true offset of every integer, pointer and string in structures of less than 16 MiB. Consequently saving reads exactly the bits of a bit-field and loading changes no other bit of the structure. Detection writes only into its own variable.", "quantifier": "every size of a structure, every number of bit-fields, every position and every width up to 128 bits, every content of the structure", "why_tests_cant": "The position is assembled from patterns whose number and block sizes depend on the size of the structure; an error shows only for some sizes and positions.", "anchors": ["src/metaresc.c:mr_fd_init_bitfield_params", "src/metaresc.c:mr_dump_struct_bitfield_detection", "src/metaresc.c:mr_dump_struct_type_add_field", "src/metaresc.h:MR_ADD_TYPE_", "src/mr_dwarf.c:load_member"]}
{"id": "C68", "title": "Overrides of union members", "statement": "If the description of a union lists values of the discriminator with names of members, a value selects the member of the first listed override of this value that names an existing member, and nothing otherwise. Overrides that name no member and overrides that contradict an earlier one are reported. When memory runs out this is reported and the overrides before that point stay in force.", "quantifier": "every list of overrides with any values, repetitions and names, every hash function, every answer of the allocator, every value looked up", "why_tests_cant": "The overrides are kept in a hash table; collisions, growth and repeated values come in unlimited combinations.", "anchors": ["src/metaresc.c:mr_fd_init_ud_overrides", "src/metaresc.c:mr_ud_override_cmp", "src/mr_save.c:mr_ud_override_value"]}
{"id": "C69", "title": "Unions in XDR documents", "statement": "An object built of scalars, structures and unions nested in any way that is saved as XDR is read back: the members in use have the saved values, all other bytes of the destination stay, and reading stops right behind the object. The reader may know more members of a union, or list them in another order. A document that ends early, names a member that the reader does not know, or has NULL or a reference for the name is refused. On no document does the reader touch memory outside of the document and the object.", "quantifier": "every type of any depth and number of members, every choice of members, all contents of source and destination, every position in a document, every cut of it, and for safety every document", "why_tests_cant": "Types, choices of members and documents come in unlimited combinations; tests try a few types with the same program as writer and reader.", "anchors": ["src/xdr.c:xdr_save_union", "src/xdr.c:xdr_load_union", "src/xdr.c:xdr_load_struct", "src/xdr.c:xdr_load_inner", "src/xdr.c:xdr_save_node", "src/metaresc.c:mr_get_fd_by_name"]}
{"id": "C70", "title": "Loading a union from XDR leaves no memory behind", "statement": "When reading of a union from an XDR document returns, successfully or not, the memory allocated for the name of the member has been freed.", "quantifier": "every document and every position in it", "why_tests_cant": "It must hold for documents cut off at any byte; a lost block is not visible in the result.", "anchors": ["src/xdr.c:xdr_load_union", "src/xdr.c:xdr_load_string"]}
{"id": "C71", "title": "Names of void fields", "statement": "A field declared with MR_VOID, whose declarator may contain brackets, parentheses or a colon, is known by the first word of the declarator: the first run of letters, digits and underscores. At most one byte is written, behind this word inside the text; names of other fields, empty and missing names are left alone; repeating it changes nothing.", "quantifier": "every text of a declarator, everything stored before and behind it", "why_tests_cant": "Declarators come in unlimited forms; reading behind the text or writing a wrong byte may go unnoticed.", "anchors": ["src/metaresc.c:mr_normalize_field_name", "src/metaresc.c:mr_init_struct"]}
{"id": "C72", "title": "Making fields void", "statement": "After MR_TYPE_VOID_FIELDS exactly the listed fields of the type are void, however often and in which order they are listed; each remembers its previous type (arrays, pointers and bit-fields keep what they remember); all other fields are unchanged; listed names without a field are reported, in order.", "quantifier": "every structure with distinct names of fields, every list of names with repetitions and unknown names", "why_tests_cant": "Repeated listing must not overwrite the remembered type; lists and types come in unlimited combinations.", "anchors": ["src/metaresc.c:mr_type_void_fields_impl", "src/metaresc.c:mr_get_fd_by_name"]}
{"id": "C73", "title": "Messages reach the user", "statement": "A message goes to the user-defined handler if there is one, whatever its level; otherwise it is dropped if its level is below the configured one, and written to stderr else, with the name of its level and the text for its identifier. Unknown levels and identifiers, and lack of memory, are written as such. Messages before types are registered do not spoil later ones.", "quantifier": "every sequence of messages with any levels, identifiers and arguments, with handler, threshold, registration of types and memory changing in between", "why_tests_cant": "The table of texts is built on first use, so the result depends on the history; tests do not pass unknown numbers.", "anchors": ["src/mr_message.c:mr_message", "src/mr_message.c:mr_message_format", "src/mr_message.c:mr_vasprintf"]}
{"id": "C74", "title": "Functions are saved by their own names", "statement": "Saving a pointer to a function yields a name only if the dynamic linker maps the function to this name and the name to this function, and it yields such a name whenever there is one; which pointers were saved before, whether results are cached and whether memory for the cache is short makes no difference.", "quantifier": "every sequence of functions, with caching switched on and off and any allocation failing in between, in every process whose set of loaded libraries does not change", "why_tests_cant": "The answer comes from a cache that depends on all earlier calls and on which allocations failed.", "anchors": ["src/mr_stringify.c:mr_serialize_func"]}
{"id": "C75", "title": "Pointers to functions survive saving and loading", "statement": "A pointer to a function that was saved, by name or as an address, is the same pointer after the text is loaded in the same process. Loading a text gives the function of that name, or the number the text spells, or fails.", "quantifier": "every function pointer, name and process; every text", "why_tests_cant": "Tests use a few short names; the buffer for names and the spelling of addresses matter for all of them.", "anchors": ["src/mr_load.c:mr_load_func", "src/mr_load.c:mr_get_func", "src/mr_stringify.c:mr_serialize_func", "src/json_save.c:json_printf_func"]}
{"id": "C76", "title": "Types of fields follow their declarations", "statement": "From the text of a declaration the library finds what a field is: for a registered type of the user the object, pointer, pointer to pointer or array the declaration says, linked to that type, with the declared dimensions and the right size; for a basic type the basic type, whatever typedef was used; for an unknown type an opaque field or a pointer to opaque data.", "quantifier": "every declaration with any name, qualifiers, stars, bounds and white space, and every set of registered types", "why_tests_cant": "Declarations are texts of any shape; the result depends on their spelling, on what the compiler detected and on which types are registered.", "anchors": ["src/metaresc.c:mr_detect_structured_type", "src/metaresc.c:mr_type_size", "src/metaresc.c:mr_type_is_a_pointer", "src/metaresc.c:mr_type_is_an_array"]}
{"id": "C77", "title": "Fields that make no sense become opaque", "statement": "After types are registered, every field is one of the kinds of data the library knows, and the descriptor of its type, or of what it points to or consists of, is there where it is needed and is of the right kind. Fields for which this does not hold are made opaque, or pointers to opaque data; other fields are not changed. Checking again changes nothing.", "quantifier": "every description of a field, whatever was detected for it", "why_tests_cant": "Descriptions come from user macros, DWARF and typedefs in any combination; saving, loading and copying follow the descriptors without checks of their own.", "anchors": ["src/metaresc.c:mr_validate_stype", "src/metaresc.c:mr_validate_td", "src/metaresc.c:mr_detect_type"]}
{"id": "C78", "title": "Parts of an initializer reach the right fields", "statement": "When a structure is loaded, a value with a name goes to the field with this name and a value without a name to the field after the previous one, as in C; an anonymous union written as .name = \"\", { ... } receives what is between the braces, and the next value without a name goes to the field after the union. So whatever fields were written to a C initializer are loaded into the same fields. Documents with names the structure does not have are refused. (A field without a name of its own takes any name.)", "quantifier": "every structure with distinct names of fields, every sequence of values; for structures with anonymous unions, documents in which an empty text is not followed by another empty text without a name", "why_tests_cant": "Order, omission and names of values can be combined in any way, and the loader changes the document while it walks through it.", "anchors": ["src/mr_load.c:mr_load_struct", "src/mr_load.c:mr_load_struct_next_field", "src/mr_load.c:mr_load_anon_union", "src/mr_load.c:mr_load", "src/cinit_save.c:cinit_printf_anon_union"]}
{"id": "C79", "title": "Names are compared consistently", "statement": "The tables of types, fields and enumeration constants compare names, or names together with types, in one strict total order: a comparison gives 0 exactly for equal names, and opposite and transitive results otherwise. What compares as equal has the same hash value, and hash values that are stored on first use never change a result.", "quantifier": "every sequence of hashing and comparing, all names including NULL, every hash function", "why_tests_cant": "Collisions of hash values are rare, and results could depend on which hash values were stored before.", "anchors": ["src/metaresc.c:mr_hashed_string_get_hash", "src/metaresc.c:mr_hashed_string_cmp", "src/metaresc.c:mr_fd_name_and_type_cmp", "src/metaresc.c:mr_fd_name_and_type_get_hash", "src/metaresc.c:mr_fd_name_cmp"]}
{"id": "C80", "title": "Fields of a structure are sorted by their places", "statement": "When a structure is registered, its fields are put in the order of their offsets whatever the order they were declared in: none is lost, fields of size 0 come before the field at the same offset, bit-fields are in the order of their bits. (If fields overlap in other ways there is no such order.)", "quantifier": "every structure with up to 2^31 fields in every order, bit-fields and fields of size 0 included", "why_tests_cant": "The comparator has different rules for bit-fields and other fields; heap sort gives an unsorted result if they do not fit together.", "anchors": ["src/metaresc.c:mr_fd_offset_cmp_sorting", "src/metaresc.c:mr_detect_struct_fields", "src/mr_hsort.c:mr_hsort"]}
{"id": "C81", "title": "Copies of texts", "statement": "mr_strndup (str, size) gives a new block with the text at str, at most size bytes of it, and a zero at the end, or NULL if there is no memory. It reads nothing behind the zero or behind size bytes, so that texts without a zero can be copied.", "quantifier": "every memory with a text, every size, every allocator", "why_tests_cant": "Reading one byte too many is seen only at the end of mapped memory.", "anchors": ["src/metaresc.c:mr_strndup"]}
{"id": "C82", "title": "The type of an object is taken from what the compiler writes", "statement": "From the text the compiler's structure dump begins with (a type name, maybe after struct, union or enum, maybe followed by a space and more, directly or as an argument of %s) the library gets the name of the type if it is registered, and nothing if it is unknown or a placeholder.", "quantifier": "every name, text and set of registered names", "why_tests_cant": "The texts differ between versions of compilers and between ways types are declared.", "anchors": ["src/metaresc.c:mr_get_struct_type_name_extra", "src/metaresc.c:mr_get_struct_type_name", "src/metaresc.c:mr_skip_keywords"]}
{"id": "C83", "title": "Every registered type can be pointed to by mr_ptr_t", "statement": "After types are registered, mr_ptr_t has, besides its own members, a member for every registered type, named like the type, that is a pointer to an object of this type at the place of the first member, and no others. Registering again changes nothing. (A type named like one of the own members gets none.)", "quantifier": "every list of types with distinct names", "why_tests_cant": "Depends on the names of all types a program registers and their order.", "anchors": ["src/metaresc.c:mr_register_type_pointer", "src/metaresc.c:mr_conf_init", "src/mr_protos.h:mr_ptr_t"]}
