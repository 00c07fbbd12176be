# Formal model of Metaresc in Lean 4

## Layout

* `lean/Verif/Model/*.lean`  – the model: total computable functions, one per C function, each citing file and lines in `/repo`.
* `lean/Verif/Spec/*.lean`   – small specifications used in the theorem statements, independent of the model.
* `lean/Verif/Lemmas/*.lean` – helper lemmas and proofs.
* `lean/Verif/Props/*.lean`  – the property theorems (`C01_…`), each followed by `example`s showing that its hypotheses are met by a concrete non-trivial case.
* `seeded/LOG.jsonl`         – mutation log: wrong programs tried against the theorems.
* `MANIFEST.json`            – property → theorem map.

## Plan per property

| id | what is modelled | how it is proved |
|----|------------------|------------------|
| C01, C02 | `sift`, `mr_hsort` on an array with checked indices (`Option`: out-of-range access is a distinct outcome) and an arbitrary comparator | permutation for any comparator by induction over the loops; sortedness through the heap invariant |
| C03, C04 | `mr_save_bitfield_value`, `mr_load_bitfield_value` on a byte list with unsigned 128-bit arithmetic | bit-level extensionality: bit `k` of the field is bit `(shift+k)` of the byte string |
| C05, C06 | `mr_uintmaxtostr`, the int128 printer with its buffer, `mr_strtouintmax` | strong induction on the value; digit-fold lemma |
| C07–C10 | `mr_ra_printf_quote_string` with the three patterns, the XML quoting and the four unquoting loops | induction on the string with generalised suffix; C08 is false of the code (octal escape swallows following octal digit): negation with witness, and a `_partial` theorem |
| C11 | `mr_rarray_allocate_element` with an allocator that may fail | invariant over append histories |
| C12–C15, C21, C44 | `mr_ic.c` unsorted/sorted/static/hash collections | refinement of each to the same abstract set of keys |
| C16–C20 | `mr_btree.c` on the pool representation | abstraction to inductive trees; in-order list refinement; colour/balance invariants; height bound |
| C22, C23, C41 | enum init/lookup, bit-mask print and parse | binary search invariant; XOR/OR fold invariant |
| C24–C26 | xdr primitives, strings, then the graph | round-trip with generalised suffix; for the graph the addresses of all blocks are computed in advance from the saved tree (`Plan`), then induction over the forest: each node writes its own bytes and no other |
| C27–C29, C40 | pointer-descriptor list, `mr_add_child`, DFS, renumbering, empty-node removal | abstraction to rose trees |
| C30, C31, C42 | typed heap, `mr_save` resolution, copy, free | graph isomorphism/bijection |
| C32 | `mr_cmp_structs`, `mr_hash_struct` on saved trees | lexicographic order laws |
| C33 | `mr_value.c` integer operations | case analysis |
| C34 | `mr_sort_td` | bucket/stability invariant |
| C35 | `mr_calc_lloc` | fold over the text |
| C36 | array save/load recursion over dimensions | negation for unequal dimensions, `_partial` for equal ones |
| C37 | `mr_read_xml_doc` automaton | characterisation over prefixes |
| C38 | `mr_normalize_type`, `mr_skip_keywords` | induction over the string |
| C39 | `mr_conf_init` as a transition system of N threads | invariant over schedules |
| C43 | `json_save.c`, the rules of `json_load.l` (regular expressions, longest match), the grammar and actions of `json_load.y` | lexing lemmas per token, structural induction over the forest on both sides; unambiguity of the grammar |
| C45 | the four unquoting loops on arbitrary bytes | loop invariant (index in range, fuel); XML: divergence witness, `_partial` |
| C46 | the text appenders (`mr_ra_append_char`, `mr_ra_append_string`, `mr_ra_printf`) with failing allocations | invariant over append histories |
| C47 | the collections with failing allocations | simulation of the abstract set that may refuse |
| C48 | the tree validators on arbitrary node arrays | soundness: acceptance implies the tree invariants |
| C49 | `mr_reorder_strings` | invariant over the walk |
| C50 | anonymous-union extraction (`mr_anon_unions_extract`) | induction over the field list |
| C51 | loading arbitrary bytes from XDR | invariant (memory changed, cells of pointers) kept by every step; depth bounded by unread bytes and nesting of types |
| C52 | `mr_load.c`: filling an object from the nodes of a parsed document, references, release after a failure | invariant over the two phases (every new block is held by exactly one pointer or string at a later node than its container), cleanup by induction from the last node; for JSON the parser is shown to leave a tree |
| C53 | the same code: what is stored for every node | the relation of a node to its object is established when the node is opened and shown to be kept by every later step (bytes apart, bits apart for bit fields), then by the pass that sets references |
| C54 | `MR_SAVE_JSON` and `MR_LOAD_JSON` end to end (`Model/SaveJson`: value handlers and conversions) | composition: the saved tree without its empty nodes is writable (C40, C43), the nodes read back list the saved graph (`Lemmas/DocWalk`), C53 tells what is loaded, `Lemmas/LoadGraph` shows that this is an image of the graph; `Lemmas/GraphFits` that the document fits the types, so that loading succeeds (C55) |
| C55 | `mr_load.c`: the ways in which loading can fail | invariant over both phases (blocks are few and small, every node that was opened has a type it fits); each step is shown not to fail |
| C56 | `xml_save.c`, the rules of `xml1_load.l` (regular expressions, longest match), the grammar and actions of `xml1_load.y` | lexing lemmas per token; structural induction over the forest on both sides, where the white space after a forest becomes the text after its last tag; unambiguity of the grammar |
| C57 | `cinit_save.c`, the rules of `cinit_load.l` (regular expressions, longest match, comments, attributes in comments), the grammar and actions of `cinit_load.y` with the grammar of values of C33 | lexing lemmas per token; every value is a token or an expression that the value grammar evaluates to it; structural induction over the forest on both sides; unambiguity of the grammar (the end of an expression is determined by the token after it) |
| C58 | `scm_save.c`, the rules of `scm_load.l` (regular expressions, longest match, white space as a token, attributes in comments), the grammar and actions of `scm_load.y` | closed form of the writer's line breaks (text that may end with one newline to take back); lexing lemmas per token; induction over the tree: the text of a forest is a separator of white space and a core whose tokens are those of the grammar, whatever ends it; the reader's state after each subtree in document order; unambiguity of the grammar by induction over derivations |
| C59 | `yaml_save.c` (the events given to libyaml's emitter), `yaml_load.c` (the reader's recursion over the events, anchors and aliases read with `sscanf`, `add_missed_crossrefs`) | the writer's events by induction over the tree (via C28); the reader's state after each subtree in document order; the second pass as a function that marks exactly the targets without an anchor, with its table of 32-bit size as an invariant |
| C60 | `yaml_load.c` for any list of events (see C59), `mr_add_child` with its search for the last child | invariant of the reader (links of all nodes in range, parents older and no references, siblings younger, one value for each node), kept by every event; termination of the searches from it; length of the table in the second pass |
| C61 | `xml_save.c` `xml2_save_node`, `mr_xml2_save`; `xml2_load.c` (the tree of `xmlNode`s in memory; `xmlNodeSetContent` is a parameter that is assumed to decode ASCII character data) | the elements made for a forest by induction (via C28), with the frame of untouched nodes; the array the reader leaves for any tree, children linked after they are complete, is the one of linking in document order: induction with the path along the siblings to the last child |
| C62 | `mr_udo_init.c`: the graph of types and the search for the discriminator of a union | depth first search with marks: invariant on newly visited nodes (closed, reachable, agreeing), then reachability is shown to be the scope of the specification |
| C63 | `mr_union_discriminator`, `mr_check_ud`, moving of nodes: the member of a union and the remembered results | invariant over histories of added nodes, resolved unions and moved nodes: every remembered result is the one of a search from the beginning, and results are remembered on the whole way up; two deviations |
| C64 | `mr_union_discriminator_by_type` and `mr_type_is_union_discriminator`: the value of a discriminator and the member it selects | the marks of types are right outside of the types on the current way (invariant); the loop follows a relation that gives every object described by a field its value; one deviation |
| C65 | `mr_assign_int`, `mr_get_fd_by_offset`, `mr_pointer_get_size_ptrdes`, `mr_pointer_set_size` and their use when pointers and arrays are saved: size fields | the binary search and the walk to the last field against the specification (invariant of the loop), the way to the enclosing structure by induction; bytes of integers in two's complement by induction on the width, then reading after writing. Not modelled: size fields that are bit-fields |
| C66 | `mr_print_pointer` and the last call of the JSON, C, XML and Scheme writers: printed values | the length of addresses by induction on the number of hexadecimal digits gives that the buffer suffices; the walk of C28 ends with a call for the root, which writes a line feed; deviations for Scheme |
| C67 | `mr_fd_init_bitfield_params`, the detection loops of `MR_ADD_TYPE` with `mr_dump_struct_bitfield_detection`, bit-fields in the DWARF utility: positions of fields | induction over the bytes of the mask; what a pattern leaves in every byte (invariant of the fill loop), then one binary digit of the position per dump by induction on the number of passes; composed with C03 and C04 |
| C68 | `mr_fd_init_ud_overrides`, `mr_ud_override_value` with the hash collection of C15: overrides of union members | the collection holds the first override of each value that names a member (invariant of the loop, on top of the refinement of C15 and C47) |
| C69 | `xdr_save_union`, `xdr_load_union`, `xdr_load_struct`: structures and unions of scalars in XDR documents | mutual structural induction over the type of the writer and its members, on top of C24 and C25 |
| C70 | the block for the name of a union in `xdr_load_union` | case analysis; the negation for documents that end inside a name |
| C71 | `mr_normalize_field_name`: names of `MR_VOID` fields | induction over the text for both loops; the negation for texts without a word |
| C72 | `mr_type_void_fields_impl`: making fields void | induction over the listed names, making void twice is making void once |
| C73 | `mr_message`, `mr_message_format`: levels, handler, table of texts | invariant of the static table over sequences of messages; negation for two numbers |
| C74 | `mr_serialize_func` and its cache | invariant of the cache over sequences of calls; the negation if libraries are loaded in between |
| C75 | `mr_load_func`, `mr_get_func` on what the writers print | induction over the digits of the address; the negation for every name of 64 characters or more |
| C76 | `mr_detect_structured_type`, `mr_type_size` | case analysis over the number of stars on top of C38; induction over the dimensions for sizes; the negation for three stars and more |
| C77 | `mr_validate_stype` | case analysis over kinds and descriptors against a specification of sound fields |
| C78 | `mr_load_struct`, `mr_load_struct_next_field`, `mr_load_anon_union` and the check of names in `mr_load`: where nodes go | an inductive specification of initializers; induction over derivations one way and over the number of nodes the other |
| C79 | `mr_hashed_string_get_hash`, `mr_hashed_string_cmp`, the comparators and hash functions of fields, enumeration constants and types by name and by name and type; `mr_hash_str` is a parameter | invariant of the stored hash values over sequences of calls; the order is total |
| C80 | `mr_fd_offset_cmp_sorting` with `mr_hsort` | total preorder for fields that do not overlap, C01; the negation for fields that overlap |
| C81 | `mr_strndup` over the readable bytes from an address on | induction over the bytes of the text |
| C82 | `mr_get_struct_type_name_extra`, `mr_get_struct_type_name`; the table of names is a parameter | case analysis on what follows the name, on top of the skipped keywords of C34; the negation for "%s" without an argument |
| C83 | `mr_register_type_pointer` and its calls by `mr_conf_init` | induction over the types |

Some properties turned out to be false of the code for part of their range.  For these there is a `_deviation_` theorem with a concrete
witness, and the theorem with the claim names the hypotheses under which it holds (or carries the suffix `_partial`).

## Trusted base

* Lean 4.33.0 kernel.  Axioms: every theorem depends on at most `propext`, `Classical.choice` and `Quot.sound`; there are no axioms of our
  own, no `sorry`, no `native_decide`, no `bv_decide`.  (`vcheck` audits this; to repeat it: `#print axioms` of the names in MANIFEST.json.)
* The reading of the C code: each definition of `lean/Verif/Model` cites the file and lines it models and says where it simplifies.
* libc functions (`realloc`, `memcpy`, `memmove`, `strcmp`, `sscanf`, `isprint`, `isspace`, ... in the "C" locale) are modelled by their
  documented behaviour.  `printf` of floating point numbers and `strtold` are not modelled; texts of floating point numbers are opaque.
* Generated parsers: flex returns the longest match, and the first rule among equal lengths (`Model/Flex.lean`); bison accepts exactly the
  derivable token sequences and performs the actions from left to right (`Model/Json.lean`), respectively resolves conflicts by the
  declared precedences (`Model/Value.lean`, C33).
* Undefined behaviour (index out of range, use of missing memory, division by zero, signed overflow where it matters) is a distinct outcome
  (`none`); a theorem that says `= some …` says in particular that none of it happens.
* Loops that are not structurally recursive take fuel; the theorems say that some amount of fuel suffices (and that more does not change the result).

## What is modelled

| file | modelled | model |
|------|----------|-------|
| src/mr_hsort.c | all | Hsort |
| src/mr_ic.c | all collection kinds | Ic, IcArray, IcHash |
| src/mr_btree.c | red-black and AVL trees: add, del, find, foreach, cursor, validators | Tree |
| src/mr_value.c, grammar of values | all integer operations, casts, expression grammar | Value |
| src/mr_stringify.c | bool, integers, 128 bit integers, quoting; enum and bit masks; functions (see C74) | Decimal, Escape, Enum, Func |
| src/metaresc.c | resizable arrays, type registration and sorting, enum lookup, type name normalisation, anonymous unions, `mr_conf_init`, add_child/DFS, copy, free, cmp, hash, XML document reader, basic type comparators, marks of discriminator types, names of void fields, comparators of names and fields, `mr_strndup`, `mr_get_struct_type_name`, `mr_register_type_pointer`, `mr_type_void_fields_impl`, detection of types of fields (C76) and their check (C77) | Detect, Validate, FieldName, Rarray, Types, Enum, TypeName, AnonUnion, Init, Ptrs, Copy, Mem, Cmp, BasicCmp, XmlDoc |
| src/mr_save.c | the save engine without unions and size fields, post-processing (strings, void pointers, ids, empty nodes, reordering), bit fields, the search for the member of a union, the value of discriminators, size fields (apart, as C65) | Save, SavePost, Ptrs, Bitfield, Arrays, UnionDisc, Discr, SizeField |
| src/mr_load.c | bit fields, arrays, the numeric and string lexers it uses; `mr_load`, `mr_load_pointer_postponed`, `mr_set_crossrefs` without unions, size fields and `char (*)[]`; conversion of values is a parameter; `mr_pointer_set_size` (apart, as C65); `mr_load_func` (see C75); `mr_load_anon_union` (apart, as C78) | Bitfield, Arrays, Decimal, Scanf, Load, LoadJson, SizeField, Func |
| src/xdr.c | primitives, strings, char arrays, streams; saving and loading of object graphs without unions and size fields, `mr_set_crossrefs`; structures and unions of scalars (C69) | Xdr, XdrGraph, XdrUnion |
| src/json_save.c, json_load.l, json_load.y, lexer.h | all (see C43) | Json, Flex, Lloc |
| src/xml_save.c, xml1_load.l, xml1_load.y | all (see C56, C61) | Xml1, Xml2, Flex, Escape |
| src/xml2_load.c | all (see C61) | Xml2 |
| src/mr_udo_init.c | all; the hash collection used for lookup is that of C13–C17, a failure of any allocation is one case | Udo |
| src/scm_save.c, scm_load.l, scm_load.y | all (see C58) | Scm, Flex, Escape |
| src/yaml_save.c, yaml_load.c | all but the set-up of libyaml's emitter and parser and their output and input functions (see C59) | Yaml |
| src/cinit_save.c, cinit_load.l, cinit_load.y | all (see C57) | Cinit, Flex, Escape, Value |
| src/mr_extra.c | free, copy, hash, comparison | SavePost, Copy, Cmp |
| src/mr_print.c | `mr_print_pointer` (see C66) | Print |
| src/mr_message.c | `mr_message`, `mr_message_format`, `mr_vasprintf` (see C73); `mr_ra_printf` (see C46) | Message, Rarray |
| src/metaresc.h (`MR_ADD_TYPE`), src/mr_dwarf.c:943–972 | positions of fields (see C67); detection of types by the compiler is not modelled | Layout |

## What is not modelled

DWARF extraction utility (`mr_dwarf.c`, except positions of bit-fields), preprocessor meta-programming, libyaml itself (C59 assumes that its parser returns the events that were given to its emitter; its check of UTF-8 is a parameter), libxml2 itself (C61 assumes that a node holds the properties and children it was given, and the text its ASCII character data stand for; what becomes of bytes from 128 on is left open),
floating point formatting, `vsnprintf`, stack traces,
`mr_print_value` of `mr_print.c` (calls of `printf`).

## Findings (proved)

* C08: `C08_cinit_octal_escape_swallows_digit`
* C22: `C22_deviation_reserved_name`, `C22_deviation_conflicting_names`, `C22_deviation_undetected_type`, `C22_deviation_names_registered_later`
* C25: `C25_deviation_char_array_overrun`
* C27: `C27_deviation_other_orders`
* C28: `C28_deviation_leaf`
* C30: `C30_deviation_void_text`, `C30_deviation_frees_destination`, `C30_deviation_root_string`
* C31: `C31_deviation_pointer_cell`, `C31_deviation_shared_cell`, `C31_deviation_views`
* C32: `C32_deviation_complex_nan`, `C32_deviation_zero`, `C32_deviation_copy_differs`
* C33: `C33_deviation_zero_divisor`, `C33_deviation_overflow`
* C34: `C34_deviation_register_first_twice`, `C34_deviation_cycle`
* C36: `C36_deviation_save_shape`, `C36_deviation_int_2_3`
* C37: `C37_deviation_comment`, `C37_deviation_no_prolog`
* C38: `C38_deviation_line_feed`, `C38_deviation_star_only`
* C39: `C39_deviation_weak_memory`
* C42: `C42_deviation_embedded`, `C42_deviation_root`, `C42_deviation_pointer_cell`
* C43: `C43_deviation_negative_zero`
* C45: `C45_xml_unquote_diverges`
* C49: `C49_deviation_lost_mark`
* C50: `C50_deviation_unbalanced`
* C51: `C51_deviation_array`, `C51_deviation_content_reference`
* C52: `C52_deviation_member_twice_failure`, `C52_deviation_member_twice_leak`, `C52_deviation_content_reference`, `C52_deviation_reference_type`,
  `C52_deviation_reference_truncated`, `C52_deviation_smallest_number`, `C52_deviation_destination_not_zero`, `C52_deviation_largest_number`,
  `C52_deviation_reference_of_structure`
* C53: `C53_deviation_reference_to_reference`, `C53_deviation_missing_target`
* C56: `C56_deviation_reference_with_children`, `C56_deviation_empty_index`
* C58: `C58_deviation_field_named_t`, `C58_deviation_pointer_without_target`, `C58_deviation_negative_zero`
* C59: `C59_deviation_largest_anchor`
* C60: `C60_deviation_negative_anchor` (and the hypothesis on anchors: between 2³¹ and 2³² the index of an alias is used as a negative `int`)
* C57: `C57_deviation_field_named_i`, `C57_deviation_smallest_integer`, `C57_deviation_constant_named_true`
- **Moved elements keep the union members of their old place** (C63, `C63_deviation_moved_elements`): when an object is reached again
  through a member instead of a pointer, `resolve_matched` checks the remembered unions of the first element only, and
  `move_nodes_to_parent` moves all of them.  If the unions differ between the elements (e.g. a pointer is NULL in the first) the
  others keep the member selected by the old place although the object around the new place selects another one.
- **At most 256 results of unions** (C63, `C63_deviation_limit`): MR_RA_UD_IDX_TYPE is `uint8_t` by default.  After 256 different
  pairs of union field and member `mr_union_discriminator` returns NULL for all unions, even those with a remembered result;
  `mr_save_union` then saves the union without a member and the operation succeeds (there is only a log message).
- **Big discriminators are truncated** (C64, `C64_deviation_big_numbers`): `mr_union_discriminator_by_idx` takes an `int`.  A discriminator of
  type `uint64_t`, `int64_t` or 128 bits is converted before it is compared with the number of members: 4294967297 selects member 1,
  while all other numbers without a member select the first one.
- **Negative sizes are huge** (C65, `C65_deviation_negative_size`): `mr_save` copies the size field of a pointer to a `uint32_t`; with −1 in an
  `int32_t` field it saves 4294967295 bytes from behind the data.  `mr_save_array` treats negative sizes as no elements.
- **Sizes that do not fit are cut off** (C65, `C65_deviation_small_field`, `C65_deviation_large_size`): loading 300 bytes with a size field of
  type `uint8_t` stores 44, and sizes of 4 GiB and more are reduced to 32 bits, both without an error.
- **Uninitialised size** (C65, `C65_deviation_null_size`): when the size field of an array is a pointer that is NULL, `mr_assign_int` returns
  without a result and `mr_save_array` uses its uninitialised variable `size`.
- **Printed numbers lose a digit** (C66, `C66_deviation_scm_number`, `C66_deviation_scm_42`): `mr_print_pointer` removes the last character of
  the document.  Scheme documents of values without parts have no final line feed, so that 42 is printed as 4.  If the document is
  empty, a byte in front of it is overwritten (`C66_deviation_empty`).
- **Structures of 16 MiB and more** (C67, `C67_deviation_huge_structure`): the constructor that `MR_ADD_TYPE` defines shifts 1 by 32 bits, which is
  undefined for an `int`.
- **The name of a union is lost** (C70, `C70_deviation_truncated_name`): if an XDR document ends inside the name of a union's member,
  `xdr_load_string` has allocated the block already; `xdr_load_union` calls `MR_FREE` only after success.
- **Declarators without a word** (C71, `C71_deviation_no_word`): for an `MR_VOID` field whose text has no letter, digit or underscore
  `mr_normalize_field_name` does not stop at the end of the text; the name becomes part of what is stored behind it.
- **One element behind the tables** (C73, `C73_deviation_level`, `C73_deviation_identifier`): `mr_message` compares the level with `<=` and the number of
  levels, `mr_message_format` the identifier with `<=` and the number of messages.
- **Names of 64 characters** (C75, `C75_deviation_long_name`): `mr_load_func` copies names into 64 bytes and fails for longer ones; saving writes them.
- **Libraries loaded later** (C74, `C74_deviation_library_loaded`): the cache keeps that a function has no name.
- **Three stars** (C76, `C76_deviation_three_stars`): `mr_detect_structured_type` removes at most two stars; `T ***` becomes a pointer to a pointer without type.
- **Fields without names take any name** (C78, `C78_deviation_unnamed_field`): if the name of a node is not in the structure, `mr_load_struct` tries the
  field after the previous one, and `mr_load` does not compare names if that field is unnamed.
- **No order for fields that overlap** (C80, `C80_deviation_overlap`): `mr_fd_offset_cmp_sorting` compares two bit-fields by their bits and all others by
  size; two bit-fields and another field at the same place can form a cycle.  Structures without overlapping fields are sorted correctly.
- **An argument is not passed on** (C82, `C82_deviation_argument_lost`): `mr_get_struct_type_name` calls `mr_get_struct_type_name_extra` without its
  own variable arguments; if the compiler's format is "%s" the latter reads one.
- **Types named like members of `mr_ptr_t`** (C83, `C83_deviation_named_like_member`): a type called `ptr`, `string`, `offset`, `uintptr` or `intptr` gets no pointer
  member in `mr_ptr_t`; the member of that name stays what it is.

## Findings from reading, not proved

* an array of empty structures makes `mr_save` fail; a root pointer is copied to a wild address; copy fails on opaque data;
* `xdrra_inline` does not advance;
* bit fields of width 0; 128-bit enumeration with a smaller effective type reads too much;
* a custom message handler called during initialisation locks itself.
