{
 "claims": [
  {
   "property": "C01",
   "status": "proved",
   "theorems": [
    "Verif.Props.Sort.C01_sorted_permutation",
    "Verif.Props.Sort.C01_sort_integers",
    "Verif.Props.Sort.C01_sort_strings"
   ],
   "note": ""
  },
  {
   "property": "C02",
   "status": "proved",
   "theorems": [
    "Verif.Props.Sort.C02_any_comparator_permutes"
   ],
   "note": ""
  },
  {
   "property": "C03",
   "status": "proved",
   "theorems": [
    "Verif.Props.Bitfield.C03_bitfield_read_back",
    "Verif.Props.Bitfield.C03_bitfield_reads_its_bits"
   ],
   "note": ""
  },
  {
   "property": "C04",
   "status": "proved",
   "theorems": [
    "Verif.Props.Bitfield.C04_neighbours_untouched"
   ],
   "note": ""
  },
  {
   "property": "C05",
   "status": "proved",
   "theorems": [
    "Verif.Props.Decimal.C05_print_unsigned",
    "Verif.Props.Decimal.C05_print_signed"
   ],
   "note": ""
  },
  {
   "property": "C06",
   "status": "proved",
   "theorems": [
    "Verif.Props.Decimal.C06_read_back_unsigned",
    "Verif.Props.Decimal.C06_read_back_signed",
    "Verif.Props.Decimal.C06_hexadecimal",
    "Verif.Props.Decimal.C06_octal"
   ],
   "note": ""
  },
  {
   "property": "C07",
   "status": "proved",
   "theorems": [
    "Verif.Props.Escape.C07_json_string_round_trip"
   ],
   "note": ""
  },
  {
   "property": "C08",
   "status": "partial",
   "theorems": [
    "Verif.Props.Escape.C08_cinit_string_round_trip_partial",
    "Verif.Props.Escape.C08_cinit_octal_escape_swallows_digit"
   ],
   "note": "The full statement is false of the code (proved: C08_cinit_octal_escape_swallows_digit); the partial theorem covers every string in which no octal-escaped byte is followed by 0-7."
  },
  {
   "property": "C09",
   "status": "proved",
   "theorems": [
    "Verif.Props.Escape.C09_scheme_string_round_trip"
   ],
   "note": ""
  },
  {
   "property": "C10",
   "status": "proved",
   "theorems": [
    "Verif.Props.Escape.C10_xml_string_round_trip",
    "Verif.Props.Escape.C10_xml_no_markup"
   ],
   "note": ""
  },
  {
   "property": "C11",
   "status": "proved",
   "theorems": [
    "Verif.Props.Rarray.C11_append_history",
    "Verif.Props.Rarray.C11_allocate_element"
   ],
   "note": ""
  },
  {
   "property": "C12",
   "status": "proved",
   "theorems": [
    "Verif.Props.Collection.C12_unsorted_array_is_a_set",
    "Verif.Props.Collection.C12_iteration_repeats_loaded_duplicates"
   ],
   "note": "histories after any bulk load; foreach/count exact when the loaded array has no equal keys (deviation witnessed)"
  },
  {
   "property": "C13",
   "status": "proved",
   "theorems": [
    "Verif.Props.Collection.C13_sorted_array_is_a_set",
    "Verif.Props.Collection.C13_iteration_increasing"
   ],
   "note": ""
  },
  {
   "property": "C14",
   "status": "proved",
   "theorems": [
    "Verif.Props.Collection.C14_static_array_is_a_set"
   ],
   "note": ""
  },
  {
   "property": "C15",
   "status": "proved",
   "theorems": [
    "Verif.Props.Collection.C15_hash_is_a_set",
    "Verif.Props.Collection.C15_bulk_zero_key_counted_twice",
    "Verif.Props.Collection.C15_failed_add_miscounts"
   ],
   "note": "fewer than 2^29 items; bulk load needs at most one key equal to the zero key (deviation witnessed); item count after a failed add deviates (witnessed)"
  },
  {
   "property": "C16",
   "status": "proved",
   "theorems": [
    "Verif.Props.Collection.C16_rbtree_is_a_set",
    "Verif.Props.Tree.C16_rbtree_stays_valid",
    "Verif.Props.Collection.C16_del_on_empty_tree_miscounts",
    "Verif.Props.Collection.C16_failed_first_add_miscounts"
   ],
   "note": "Set behaviour after bulk load and any history (memory granted); validator accepts after every history incl. refused memory. Deviation proved: items_count is 4294967295 after del on (or failed first add to) a tree that never held a key."
  },
  {
   "property": "C17",
   "status": "proved",
   "theorems": [
    "Verif.Props.Collection.C17_avltree_is_a_set",
    "Verif.Props.Tree.C17_avltree_stays_valid",
    "Verif.Props.Collection.C16_del_on_empty_tree_miscounts"
   ],
   "note": "As C16."
  },
  {
   "property": "C18",
   "status": "proved",
   "theorems": [
    "Verif.Props.Tree.C18_path_never_overflows"
   ],
   "note": "Histories of fewer than 2^31-3 calls, the range of the 31-bit indices."
  },
  {
   "property": "C19",
   "status": "proved",
   "theorems": [
    "Verif.Props.Tree.C19_iteration_in_order"
   ],
   "note": "TreeFacts: walk, and cursor from any key in both directions, on every reachable tree."
  },
  {
   "property": "C20",
   "status": "proved",
   "theorems": [
    "Verif.Props.Tree.C20_delete_keeps_the_others"
   ],
   "note": "Every reachable RB and AVL tree, every key."
  },
  {
   "property": "C21",
   "status": "proved",
   "theorems": [
    "Verif.Props.Collection.C21_kinds_interchangeable",
    "Verif.Props.Collection.C16_del_on_empty_tree_miscounts"
   ],
   "note": "All six kinds. The count clause excludes histories that delete but never add: there trees report 4294967295 (proved deviation)."
  },
  {
   "property": "C22",
   "status": "proved",
   "theorems": [
    "Verif.Props.Enum.C22_lookup_by_value",
    "Verif.Props.Enum.C22_lookup_by_name",
    "Verif.Props.Enum.C22_enum_round_trip",
    "Verif.Props.Enum.C22_known_value_prints_a_name",
    "Verif.Props.Enum.C22_deviation_reserved_name",
    "Verif.Props.Enum.C22_deviation_conflicting_names",
    "Verif.Props.Enum.C22_deviation_undetected_type",
    "Verif.Props.Enum.C22_deviation_names_registered_later"
   ],
   "note": "Enumerations of at most 64 bits whose integer type was detected, no constant called true/false, no name used with two values, all types registered before the first text is read; the deviation theorems show that the code loses values without each of these hypotheses."
  },
  {
   "property": "C23",
   "status": "proved",
   "theorems": [
    "Verif.Props.Enum.C23_bitmask_round_trip"
   ],
   "note": "Every value of every bit-mask (and plain) enumeration of up to 64 bits, same hypotheses as C22."
  },
  {
   "property": "C24",
   "status": "proved",
   "theorems": [
    "Verif.Props.Xdr.C24_scalar_round_trip",
    "Verif.Props.Xdr.C24_sequence_round_trip",
    "Verif.Props.Xdr.C24_decoding_is_safe",
    "Verif.Props.Xdr.C24_wire_format"
   ],
   "note": "All scalar encoders of xdr.c incl. 128-bit, raw (float/long double) and complex; round trip at any place of a document, wire format, truncation refused, arbitrary documents safe."
  },
  {
   "property": "C25",
   "status": "proved",
   "theorems": [
    "Verif.Props.Xdr.C25_string_round_trip",
    "Verif.Props.Xdr.C25_null_round_trip",
    "Verif.Props.Xdr.C25_reference_round_trip",
    "Verif.Props.Xdr.C25_string_is_safe",
    "Verif.Props.Xdr.C25_char_array_round_trip",
    "Verif.Props.Xdr.C25_dynamic_array_round_trip",
    "Verif.Props.Xdr.C25_dynamic_array_is_safe",
    "Verif.Props.Xdr.C25_deviation_char_array_overrun"
   ],
   "note": "Round trips and refusal of every truncation. Deviation: a crafted document overruns a character array inside an object (length is not checked)."
  },
  {
   "property": "C26",
   "status": "partial",
   "theorems": [
    "C26_round_trip_partial",
    "C26_same_shape",
    "C26_sharing"
   ],
   "note": "Saving any graph of the covered types to XDR succeeds, and loading the document with any allocator into any memory gives a graph of the same shape: same scalars, bit fields, enums, character arrays, strings, NULLs, sharing and cycles; exactly the blocks of the graph are allocated and nothing else is written. Missing: unions, size fields, arrays of more than one dimension, opaque data, pointers to pointers, and a pointer, string or array as the object that is saved."
  },
  {
   "property": "C27",
   "status": "proved",
   "theorems": [
    "Verif.Props.Ptrs.C27_document_order",
    "Verif.Props.Ptrs.C27_bottom_up",
    "Verif.Props.Ptrs.C27_general",
    "Verif.Props.Ptrs.C27_exactly_when",
    "Verif.Props.Ptrs.C27_deviation_other_orders",
    "Verif.Props.Ptrs.C27_new_node"
   ],
   "note": "Proved for document order and bottom-up order (the two used by the loaders), exact condition otherwise, with a witness of nodes lost for other orders."
  },
  {
   "property": "C28",
   "status": "proved",
   "theorems": [
    "Verif.Props.Dfs.C28_from_root",
    "Verif.Props.Dfs.C28_from_inner_node",
    "Verif.Props.Dfs.C28_every_node_before",
    "Verif.Props.Dfs.C28_every_node_after",
    "Verif.Props.Dfs.C28_stops_at_failure",
    "Verif.Props.Dfs.C28_deviation_leaf"
   ],
   "note": "Walk = calls in document order with depths, stops at first failure; from a root or any inner node. Started at a leaf that has a parent it leaves the subtree (witness)."
  },
  {
   "property": "C29",
   "status": "proved",
   "theorems": [
    "Verif.Props.Dfs.C29_dense",
    "Verif.Props.Dfs.C29_unique"
   ],
   "note": "ids are 1..n in document order (below 2^31 nodes, the width of the id member)."
  },
  {
   "property": "C30",
   "status": "partial",
   "theorems": [
    "C30_copy_partial",
    "C30_success_partial",
    "C30_failure_partial",
    "C30_same_shape",
    "C30_fresh",
    "C30_deviation_void_text",
    "C30_deviation_frees_destination",
    "C30_deviation_root_string"
   ],
   "note": "Proved for every finite graph of the modelled types over byte memory and any allocator: the copy has the same shape (sharing, cycles, interior pointers), the same data and texts, and lies in the destination and new blocks, one for each separately allocated object; a copy that runs out of memory releases everything if nothing leads to its root. Missing: unions, size fields, arrays of more than one dimension, opaque data, pointer, string or array roots, pointers to pointer cells. Deviations: void pointer to a text, release of the destination for a cyclic root, string roots."
  },
  {
   "property": "C31",
   "status": "partial",
   "theorems": [
    "Verif.Props.Free.C31_free_partial",
    "Verif.Props.Free.C31_deviation_pointer_cell",
    "Verif.Props.Free.C31_deviation_shared_cell",
    "Verif.Props.Free.C31_deviation_views"
   ],
   "note": "mr_save and mr_free_recursively modelled together; for every finite graph with sharing and cycles whose separately allocated objects each start a block of their own, the blocks freed are exactly those, each once, never the root. Not covered: unions, size fields, multi-dimensional arrays, opaque data; for pointers to pointer cells and for one block seen through pointers of different types the claim is false (deviation theorems)."
  },
  {
   "property": "C32",
   "status": "partial",
   "theorems": [
    "C32_reflexive",
    "C32_antisymmetric",
    "C32_transitive",
    "C32_equal",
    "C32_equal_members",
    "C32_smaller",
    "C32_equal_hash",
    "C32_hash_defined",
    "C32_integer_value",
    "C32_enum_value",
    "C32_string_value",
    "C32_char_array_value",
    "C32_nan",
    "C32_float_order",
    "C32_extended_order",
    "C32_float_value",
    "C32_deviation_complex_nan",
    "C32_deviation_zero",
    "C32_bitfield_value",
    "C32_copy_partial",
    "C32_deviation_copy_differs"
   ],
   "note": "Comparison is a total preorder (transitive when no complex number is NaN), what 0 and negative results mean in terms of the members and values of the nodes, equal graphs have equal hash values, the hash is defined. A deep copy compares equal to the original and has the same hash (C32_copy_partial): for the graphs of C30_copy_partial whose untyped pointers lead to objects of the graph or to other memory in use and not to texts of strings. Missing: unions, size fields, arrays of more than one dimension, opaque data. With an untyped pointer to a text the copy is not equal (C32_deviation_copy_differs)."
  },
  {
   "property": "C33",
   "status": "proved",
   "theorems": [
    "Verif.Props.Value.C33_exact",
    "Verif.Props.Value.C33_unknown_name",
    "Verif.Props.Value.C33_promotes",
    "Verif.Props.Value.C33_float",
    "Verif.Props.Value.C33_complex",
    "Verif.Props.Value.C33_zero_divisor",
    "Verif.Props.Value.C33_zero_modulus",
    "Verif.Props.Value.C33_number_in_quotes",
    "Verif.Props.Value.C33_number_in_place",
    "Verif.Props.Value.C33_whole_name",
    "Verif.Props.Value.C33_deviation_zero_divisor",
    "Verif.Props.Value.C33_deviation_overflow"
   ],
   "note": "Shift-reduce parser with the declared precedences and the value operations. Findings: the grammar ignores the failure status, so x/0 and x%0 load silently as 0; sums beyond 128 bits are undefined behaviour in C."
  },
  {
   "property": "C34",
   "status": "proved",
   "theorems": [
    "C34_sort",
    "C34_register",
    "C34_register_again",
    "C34_lookup",
    "C34_deviation_register_first_twice",
    "C34_deviation_cycle"
   ],
   "note": "Registration, sort and table of types. Deviation: registering the first registered type a second time makes the list cyclic and initialisation never ends."
  },
  {
   "property": "C35",
   "status": "proved",
   "theorems": [
    "C35_token_locations",
    "C35_cut_independent"
   ],
   "note": "For texts shorter than INT_MAX bytes (int counters)."
  },
  {
   "property": "C36",
   "status": "partial",
   "theorems": [
    "C36_save_one_dimension",
    "C36_save_square_partial",
    "C36_deviation_save_shape",
    "C36_deviation_int_2_3",
    "C36_load",
    "C36_load_in_bounds",
    "C36_load_too_many"
   ],
   "note": "Loading is proved for all shapes, saving for arrays of one dimension and for shapes with equal dimensions. For every matrix with two different dimensions the code does not save its elements (the memmove in mr_save_array has the same source and destination); this is proved as C36_deviation_save_shape."
  },
  {
   "property": "C37",
   "status": "proved",
   "theorems": [
    "C37_document",
    "C37_total",
    "C37_no_lookahead",
    "C37_deviation_comment",
    "C37_deviation_no_prolog"
   ],
   "note": "Documents with a prolog and one element nested to any depth are returned exactly and nothing behind them is consumed; every other stream is handled inside the buffer. Deviations proved: a comment in front of the element, and a missing prolog."
  },
  {
   "property": "C38",
   "status": "proved",
   "theorems": [
    "C38_normalize",
    "C38_words",
    "C38_clean",
    "C38_keeps_bytes",
    "C38_no_qualifier",
    "C38_idempotent",
    "C38_pointer_depth",
    "C38_array_bounds",
    "C38_char_array",
    "C38_no_array",
    "C38_deviation_line_feed",
    "C38_deviation_star_only"
   ],
   "note": "Deviations: other white space than blank/tab hides a keyword on the first pass; a text that is only a star makes pointer detection read before the buffer."
  },
  {
   "property": "C39",
   "status": "proved",
   "theorems": [
    "C39_once",
    "C39_complete",
    "C39_stable",
    "C39_no_deadlock",
    "C39_prompt",
    "C39_deviation_weak_memory"
   ],
   "note": "Proved on the x86-TSO machine for any number of threads; the relaxed/volatile flags are proved insufficient on a machine that drains stores out of order."
  },
  {
   "property": "C40",
   "status": "proved",
   "theorems": [
    "Verif.Props.Dfs.C40_exactly_empty",
    "Verif.Props.Dfs.C40_order_kept",
    "Verif.Props.Dfs.C40_content_kept",
    "Verif.Props.Dfs.C40_nothing_left"
   ],
   "note": "Exact description of the remaining tree, plus what this means: order kept, content kept, second pass changes nothing."
  },
  {
   "property": "C41",
   "status": "proved",
   "theorems": [
    "Verif.Props.Enum.C41_table_sorted",
    "Verif.Props.Enum.C41_bitmask_exactly_when",
    "Verif.Props.Enum.C41_undetected_type"
   ],
   "note": "Uses the heap sort theorem C01."
  },
  {
   "property": "C42",
   "status": "partial",
   "theorems": [
    "Verif.Props.Save.C42_graph_saved_partial",
    "Verif.Props.Save.C42_once_partial",
    "Verif.Props.Save.C42_saved_complete",
    "Verif.Props.Save.C42_saved_sound",
    "Verif.Props.SaveFinal.C42_result_partial",
    "Verif.Props.SaveFinal.C42_shared_strings",
    "Verif.Props.Save.C42_deviation_embedded",
    "Verif.Props.Save.C42_deviation_root",
    "Verif.Props.Save.C42_deviation_pointer_cell"
   ],
   "note": "Termination, completeness and one node per object for all finite graphs of structures, one-dimensional arrays, strings, enums and pointers (two levels). Missing: unions, size fields, more dimensions, opaque data. The deviations show graphs on which an object has two nodes. C42_result_partial extends this to the returned graph after post-processing (document order, texts of strings, void pointers)."
  },
  {
   "property": "C43",
   "status": "proved",
   "theorems": [
    "Verif.Props.Json.C43_read_back",
    "Verif.Props.Json.C43_one_meaning",
    "Verif.Props.Json.C43_references",
    "Verif.Props.Json.C43_deviation_negative_zero"
   ],
   "note": "Character level: json_save.c writes every tree of nodes (any size, depth, strings), the flex rules of json_load.l split the text, and the grammar of json_load.y with its actions rebuilds the same tree (number of nodes, links, indices, names, values, null marks, references). The grammar is unambiguous. Trusted: flex's longest-match rule, bison's acceptance of exactly the derivable token sequences; strtold is not modelled (the text of a floating point number is kept). Witness that '-0' loses its sign."
  },
  {
   "property": "C44",
   "status": "proved",
   "theorems": [
    "Verif.Props.Collection.C44_hash_has_free_slot"
   ],
   "note": ""
  },
  {
   "property": "C45",
   "status": "partial",
   "theorems": [
    "Verif.Props.Escape.C45_unquote_bounded",
    "Verif.Props.Escape.C45_xml_unquote_bounded_partial",
    "Verif.Props.Escape.C45_xml_unquote_diverges"
   ],
   "note": "Full for JSON, C-initializer and Scheme. False for XML (C45_xml_unquote_diverges); partial theorem for XML texts without malformed numeric references."
  },
  {
   "property": "C46",
   "status": "proved",
   "theorems": [
    "Verif.Props.Rarray.C46_text_complete_or_null"
   ],
   "note": ""
  },
  {
   "property": "C47",
   "status": "proved",
   "theorems": [
    "Verif.Props.Collection.C47_survives_memory_failure"
   ],
   "note": "array, static and hash kinds"
  },
  {
   "property": "C48",
   "status": "proved",
   "theorems": [
    "Verif.Props.Tree.C48_rb_validator_can_be_trusted",
    "Verif.Props.Tree.C48_avl_validator_can_be_trusted"
   ],
   "note": "Arbitrary node arrays up to 2^31 nodes whose header has a zero right link."
  },
  {
   "property": "C49",
   "status": "proved",
   "theorems": [
    "Verif.Props.Reorder.C49_first_holds_text",
    "Verif.Props.Reorder.C49_no_forward_reference",
    "Verif.Props.Reorder.C49_deviation_lost_mark"
   ],
   "note": "Proved for all trees of the form mr_save produces; witness that the reference mark of the former holder is lost."
  },
  {
   "property": "C50",
   "status": "proved",
   "theorems": [
    "C50_extract",
    "C50_names_distinct",
    "C50_deviation_unbalanced"
   ],
   "note": "Up to the documented 16 nesting levels and 1000 records (name buffers). A header without end record: extraction stops silently."
  },
  {
   "property": "C51",
   "status": "partial",
   "theorems": [
    "C51_any_document_partial",
    "C51_other_objects",
    "C51_deviation_array",
    "C51_deviation_content_reference"
   ],
   "note": "Proved for types without arrays, character arrays, unions and size fields, with a proviso on content references. False for arrays, character arrays (C25_deviation_char_array_overrun) and content references to objects of less than 8 bytes: witnesses proved."
  },
  {
   "property": "C52",
   "status": "partial",
   "theorems": [
    "C52_load_safe_partial",
    "C52_no_content_references_partial",
    "C52_json_text_partial",
    "C52_deviation_member_twice_failure",
    "C52_deviation_member_twice_leak",
    "C52_deviation_content_reference",
    "C52_deviation_reference_type",
    "C52_deviation_reference_truncated",
    "C52_deviation_smallest_number",
    "C52_deviation_destination_not_zero",
    "C52_deviation_largest_number",
    "C52_deviation_reference_of_structure"
   ],
   "note": "Proved for types without unions and size fields, for documents whose objects have no member twice, whose content references lead to pointers or strings, and which do not contain -2^127 as a reference; witnesses show that the claim is false without these conditions. For JSON every accepted text is shown to give a tree of nodes."
  },
  {
   "property": "C53",
   "status": "partial",
   "theorems": [
    "C53_load_says_partial",
    "C53_references_partial",
    "C53_json_text_partial",
    "C53_deviation_reference_to_reference",
    "C53_deviation_missing_target"
   ],
   "note": "Every node of the document is related to the object it describes (Spec/LoadSays). C53_references_partial states the condition on content references in terms of the document and adds that the blocks are what the allocator gave. Missing: unions, size fields of pointers, arrays with several dimensions, formats that mark references explicitly. Conversions of single values (text to number) are a parameter here; they are the subject of C01-C12. The hypotheses are those of C52, and bit fields have no bit in common."
  },
  {
   "property": "C54",
   "status": "partial",
   "theorems": [
    "C54_round_trip_partial"
   ],
   "note": "End to end over the models of mr_save, mr_remove_empty_nodes, mr_json_save, the JSON scanner and grammar, mr_load. Missing: unions, size fields of pointers, arrays with several dimensions, opaque data, pointers to cells that hold pointers. That loading succeeds is part of the theorem: with memory for as many blocks as nodes, each as large as the largest object, and if the conversions of floating point numbers and functions accept what was printed (Accepted). The printers and conversions of floating point numbers, functions and enums are parameters of which the values that occur are assumed to be read back (Restored); the model of the value handlers for integers, bools, characters and bit fields is proved to do so."
  },
  {
   "property": "C55",
   "status": "partial",
   "theorems": [
    "C55_load_succeeds_partial"
   ],
   "note": "Which documents fit is Spec/LoadFits, in terms of the nodes of the document and the descriptors of the types. Missing: unions, size fields of pointers, arrays with several dimensions, formats that mark references explicitly (as for C52 and C53, whose hypotheses on types and documents are assumed)."
  },
  {
   "property": "C56",
   "status": "proved",
   "theorems": [
    "C56_one_meaning",
    "C56_read_back",
    "C56_references",
    "C56_deviation_reference_with_children",
    "C56_deviation_empty_index"
   ],
   "note": "Text written and read completely modelled (scanner as longest match of the regular expressions, grammar with actions); printf of floating point numbers, characters and enumeration names is a parameter: any text without < and &."
  },
  {
   "property": "C57",
   "status": "partial",
   "theorems": [
    "Verif.Props.Cinit.C57_one_meaning",
    "Verif.Props.Cinit.C57_read_back_partial",
    "Verif.Props.Cinit.C57_references_partial",
    "Verif.Props.Cinit.C57_deviation_field_named_i",
    "Verif.Props.Cinit.C57_deviation_smallest_integer",
    "Verif.Props.Cinit.C57_deviation_constant_named_true"
   ],
   "note": "Missing: bit masks with several names and complex numbers (both are read as expressions), named anonymous unions (written as two elements of a list)."
  },
  {
   "property": "C58",
   "status": "proved",
   "theorems": [
    "Verif.Props.Scm.C58_one_meaning",
    "Verif.Props.Scm.C58_read_back",
    "Verif.Props.Scm.C58_references",
    "Verif.Props.Scm.C58_deviation_field_named_t",
    "Verif.Props.Scm.C58_deviation_pointer_without_target",
    "Verif.Props.Scm.C58_deviation_negative_zero"
   ],
   "note": "The exceptions in the statement are proved as deviations."
  },
  {
   "property": "C59",
   "status": "proved",
   "theorems": [
    "Verif.Props.Yaml.C59_read_back",
    "Verif.Props.Yaml.C59_references",
    "Verif.Props.Yaml.C59_deviation_largest_anchor"
   ],
   "note": "Up to libyaml: the parser is taken to return the events that were given to the emitter. The exception in the statement is proved as a deviation."
  },
  {
   "property": "C60",
   "status": "proved",
   "theorems": [
    "Verif.Props.Yaml.C60_any_document",
    "Verif.Props.Yaml.C60_foreign_anchors",
    "Verif.Props.Yaml.C60_deviation_negative_anchor"
   ],
   "note": "Allocation is taken never to fail. The exceptions in the statement are proved as deviations (see also C59_deviation_largest_anchor)."
  },
  {
   "property": "C61",
   "status": "proved",
   "theorems": [
    "Verif.Props.Xml2.C61_read_back",
    "Verif.Props.Xml2.C61_references",
    "Verif.Props.Xml2.C61_any_tree"
   ],
   "note": "libxml2 is a parameter: xmlNodeSetContent is assumed to decode ASCII character data (Spec/Xml2.lean Decodes); bytes from 128 on are outside of the statement"
  },
  {
   "property": "C62",
   "status": "proved",
   "theorems": [
    "C62_types_of_overrides",
    "C62_no_memory"
   ],
   "note": "Spec/Udo gives the scope of a discriminator; fields of a type have different names and the types of fields exist (both hold after registration). A failure of any allocation is the case C62_no_memory."
  },
  {
   "property": "C63",
   "status": "partial",
   "theorems": [
    "C63_union_member_partial",
    "C63_one_member",
    "C63_same_answer",
    "C63_deviation_moved_elements",
    "C63_deviation_limit"
   ],
   "note": "For all histories of added nodes, resolved unions and moved single nodes; the code violates it for moved pointers to several elements and when the number of results exceeds its index type (both proved)."
  },
  {
   "property": "C64",
   "status": "partial",
   "theorems": [
    "C64_marked_types",
    "C64_one_value",
    "C64_ends",
    "C64_selected_member_partial",
    "C64_deviation_big_numbers"
   ],
   "note": "Proved for all types and objects whose numbers fit into 32 bits; the code violates it for bigger numbers (proved)."
  },
  {
   "property": "C65",
   "status": "partial",
   "theorems": [
    "C65_size_field",
    "C65_one_size_field",
    "C65_saved_size",
    "C65_saved_elements_partial",
    "C65_saved_array",
    "C65_no_size_field",
    "C65_loaded_size",
    "C65_load_then_save",
    "C65_deviation_negative_size",
    "C65_deviation_small_field",
    "C65_deviation_large_size",
    "C65_deviation_null_size"
   ],
   "note": "Missing: size fields that are bit-fields or bool; negative sizes and sizes over 32 bits of pointers are not handled by the code (deviations)."
  },
  {
   "property": "C66",
   "status": "partial",
   "theorems": [
    "C66_whole_document",
    "C66_address",
    "C66_null_and_unknown",
    "C66_json",
    "C66_cinit",
    "C66_xml1",
    "C66_scm_partial",
    "C66_deviation_scm_number",
    "C66_deviation_scm_42",
    "C66_deviation_empty"
   ],
   "note": "Proved for JSON, C initializers and XML (built-in writer) for all trees, and for Scheme documents of values that have parts. False for Scheme documents of values without parts: the last digit of every number is dropped (deviation theorems). YAML and libxml2 documents are not covered."
  },
  {
   "property": "C67",
   "status": "proved",
   "theorems": [
    "C67_macro_bit_field",
    "C67_macro_no_bits",
    "C67_dump_bit_fields",
    "C67_dump_field",
    "C67_dwarf_bit_field",
    "C67_saved_bit_field",
    "C67_loaded_bit_field",
    "C67_deviation_huge_structure"
   ],
   "note": "The detection of types is not modelled. In structures of 16 MiB and more the detection of offsets has undefined behaviour (deviation theorem)."
  },
  {
   "property": "C68",
   "status": "proved",
   "theorems": [
    "C68_first_override",
    "C68_any_memory"
   ],
   "note": "The lookup of members by name (mr_get_fd_by_name) is a parameter."
  },
  {
   "property": "C69",
   "status": "proved",
   "theorems": [
    "C69_round_trip",
    "C69_same_type",
    "C69_unknown_member",
    "C69_no_name",
    "C69_loading_is_safe"
   ],
   "note": "Members are scalars, structures and unions; pointers, strings, arrays and bit-fields are in C26, without unions. The choice of the saved member is C62-C64 and C68."
  },
  {
   "property": "C70",
   "status": "partial",
   "theorems": [
    "C70_name_is_freed_partial",
    "C70_deviation_truncated_name"
   ],
   "note": "False for documents that end inside the name: xdr_load_string fails after its allocation and xdr_load_union frees only after success (deviation theorem, for every name and every cut)."
  },
  {
   "property": "C71",
   "status": "partial",
   "theorems": [
    "C71_first_word",
    "C71_word_exists",
    "C71_others",
    "C71_again",
    "C71_deviation_no_word"
   ],
   "note": "False for texts without any letter, digit or underscore: the loop runs over the end of the text (deviation theorem). Proved for all others."
  },
  {
   "property": "C72",
   "status": "proved",
   "theorems": [
    "C72_listed_fields"
   ],
   "note": "The lookup by name is simplified to the first field with the name; the report for an unknown type is not modelled."
  },
  {
   "property": "C73",
   "status": "partial",
   "theorems": [
    "C73_messages_partial",
    "C73_deviation_level",
    "C73_deviation_identifier"
   ],
   "note": "False for log level 8 and identifier MR_MESSAGE_LAST + 1, which read behind the tables (deviation theorems). The formatting by vsnprintf is a parameter, the stack trace is not modelled."
  },
  {
   "property": "C74",
   "status": "proved",
   "theorems": [
    "C74_right_names",
    "C74_deviation_library_loaded"
   ],
   "note": "Any sequence of calls from the empty cache. The deviation shows that the assumption about the libraries is needed: names made known later are not seen once a function was asked for."
  },
  {
   "property": "C75",
   "status": "partial",
   "theorems": [
    "C75_round_trip_partial",
    "C75_only_names_and_numbers",
    "C75_deviation_long_name"
   ],
   "note": "Proved for names of at most 63 characters and for addresses no symbol is called like. Deviation: every name of 64 characters or more is written but cannot be loaded where the document stores it as a substring. Scheme documents write addresses as #x..., these are integers for the parser (C58) and load as such."
  },
  {
   "property": "C76",
   "status": "partial",
   "theorems": [
    "C76_user_types",
    "C76_basic_types",
    "C76_unknown_types",
    "C76_bit_fields",
    "C76_char_arrays",
    "C76_deviation_three_stars"
   ],
   "note": "Missing: types of the user behind three or more stars, which are lost (deviation, for every such declaration). What the compiler detects (mr_type, mr_type_aux, sizes) is an input. Registered names contain no star."
  },
  {
   "property": "C77",
   "status": "proved",
   "theorems": [
    "C77_sound",
    "C77_keeps",
    "C77_opaque",
    "C77_again",
    "C77_detected"
   ],
   "note": "All kinds and descriptors. C77_keeps: pointers to and arrays of kinds that are parts of structures only (bit-fields, anonymous unions, arrays) count as senseless, as in the code. C77_detected links this to C76."
  },
  {
   "property": "C78",
   "status": "proved",
   "theorems": [
    "C78_initializer",
    "C78_accepted",
    "C78_read_back",
    "C78_unknown_name",
    "C78_deviation_unnamed_field"
   ],
   "note": "The check of types of typed nodes and what happens inside the fields are not part of this model. Structures with fields without names of their own accept more documents (deviation)."
  },
  {
   "property": "C79",
   "status": "proved",
   "theorems": [
    "C79_history",
    "C79_total_order",
    "C79_equal_hash",
    "C79_variables",
    "C79_unions"
   ],
   "note": "mr_hash_str is a parameter (any function of the text). Addresses of texts are not modelled: the shortcut for equal addresses gives what strcmp gives."
  },
  {
   "property": "C80",
   "status": "proved",
   "theorems": [
    "C80_sorted",
    "C80_deviation_overlap"
   ],
   "note": "Fields that overlap (other than bit-fields sharing bytes and fields of size 0) have no order under the comparator (deviation); structures have no such fields."
  },
  {
   "property": "C81",
   "status": "proved",
   "theorems": [
    "C81_copy"
   ],
   "note": "Memory is the list of bytes that can be read from the address on."
  },
  {
   "property": "C82",
   "status": "partial",
   "theorems": [
    "C82_type_of_object",
    "C82_thread_partial",
    "C82_deviation_argument_lost"
   ],
   "note": "Proved for the variant with an extra argument, and for the other one for texts that are passed directly. Missing: \"%s\" for the latter, which reads an argument that was not passed (deviation). The table of names is a parameter; registered names contain no space."
  },
  {
   "property": "C83",
   "status": "proved",
   "theorems": [
    "C83_members",
    "C83_no_union",
    "C83_again",
    "C83_deviation_named_like_member"
   ],
   "note": "Types named like an own member of mr_ptr_t keep that member (deviation; this is part of the statement). A lack of memory is not modelled."
  }
 ]
}