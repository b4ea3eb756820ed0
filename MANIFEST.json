{
 "claims": [
  {
   "property": "C01",
   "status": "proved",
   "theorems": [
    "Axl.AxlList.C01_list_is_sequence"
   ],
   "note": "Pointer-level model of axlList, any comparison function, any history."
  },
  {
   "property": "C02",
   "status": "proved",
   "theorems": [
    "Axl.AxlList.C02_add_keeps_order",
    "Axl.AxlList.C02_add_stores_each_once",
    "Axl.AxlList.C02_equal_int_orders",
    "Axl.AxlList.C02_order_string_orders",
    "Axl.AxlList.C02_always_return_1_appends",
    "Axl.AxlList.C02_equal_string_stores_duplicate"
   ],
   "note": "For ordering comparisons; axl_list_equal_int orders descending; axl_list_equal_string does not order and stores duplicates (witness theorem)."
  },
  {
   "property": "C03",
   "status": "partial",
   "theorems": [
    "Axl.AxlList.C03_remove_first_equal",
    "Axl.AxlList.C03_remove_ptr",
    "Axl.AxlList.C03_exists_sound",
    "Axl.AxlList.C03_exists_partial",
    "Axl.AxlList.C03_exists_false_for_equal_string",
    "Axl.AxlList.C03_exists_only_ends",
    "Axl.AxlList.C03_exists_equal_ptr_only_first",
    "Axl.AxlList.C03_exists_at"
   ],
   "note": "remove/unlink proved in full. exists is sound for every comparison and complete for ordering comparisons; it is false for axl_list_equal_string and axl_list_equal_ptr (exact characterisations proved). axl_list_exists_at in full."
  },
  {
   "property": "C04",
   "status": "proved",
   "theorems": [
    "Axl.AxlList.C04_destroy_exactly_once",
    "Axl.AxlList.C04_no_destroy_function"
   ],
   "note": "Log of destroy calls over the whole life of the list."
  },
  {
   "property": "C05",
   "status": "proved",
   "theorems": [
    "Axl.AxlList.C05_copy_ordered",
    "Axl.AxlList.C05_copy_appending",
    "Axl.AxlList.C05_copy_equal_ptr_reverses"
   ],
   "note": "Appending and ordering comparisons; with axl_list_equal_ptr the copy is reversed (proved)."
  },
  {
   "property": "C06",
   "status": "proved",
   "theorems": [
    "Axl.AxlList.C06_cursor"
   ],
   "note": "All cursor operations, any history."
  },
  {
   "property": "C07",
   "status": "proved",
   "theorems": [
    "Axl.C07_stack_lifo"
   ],
   "note": "Array-level model, any history."
  },
  {
   "property": "C08",
   "status": "proved",
   "theorems": [
    "Axl.C08_binary_stack_lifo"
   ],
   "note": "Heap-level model of the run-length encoded stack, any history."
  },
  {
   "property": "C09",
   "status": "proved",
   "theorems": [
    "Axl.C09_hash_is_a_map",
    "Axl.C09_int_functions_consistent",
    "Axl.C09_string_functions_consistent",
    "Axl.C09_null_string_key_found_under_other_key",
    "Axl.AxlHash.C09_capacity",
    "Axl.AxlHash.C09_capacity_null"
   ],
   "note": "Any consistent hash/comparison (the library functions for ints, and for non-NULL strings, are proved consistent); false for NULL string keys (witness theorem)."
  },
  {
   "property": "C10",
   "status": "proved",
   "theorems": [
    "Axl.C10_foreach_visits_each_pair_once"
   ],
   "note": ""
  },
  {
   "property": "C11",
   "status": "proved",
   "theorems": [
    "Axl.C11_copy_is_equal",
    "Axl.C11_copy_null_string_key_crashes"
   ],
   "note": "Key copies equal to the keys; a NULL string key crashes the copy (witness theorem)."
  },
  {
   "property": "C12",
   "status": "proved",
   "theorems": [
    "Axl.C12_destroyed_exactly_once"
   ],
   "note": ""
  },
  {
   "property": "C13",
   "status": "partial",
   "theorems": [
    "Axl.C13_cursor_reads_each_pair_once",
    "Axl.C13_first_on_emptied_hash_keeps_item",
    "Axl.C13_cursor_last_partial",
    "Axl.C13_last_misses_slot_zero",
    "Axl.C13_cursor_remove_all",
    "Axl.C13_cursor_remove_revisits"
   ],
   "note": "Forward reading, has_next and remove-all proved; last holds only outside slot 0; removing some pairs while reading revisits pairs (witness theorems)."
  },
  {
   "property": "C14",
   "status": "partial",
   "theorems": [
    "Axl.C14_factory_disjoint_partial",
    "Axl.C14_factory_large_out_of_bounds",
    "Axl.C14_spares",
    "Axl.C14_no_spares"
   ],
   "note": "Element sizes 1..512; false above 512 (proved for every such size)."
  },
  {
   "property": "C15",
   "status": "proved",
   "theorems": [
    "Axl.C15_string_factory_disjoint"
   ],
   "note": "Any sequence of sizes."
  },
  {
   "property": "C16",
   "status": "proved",
   "theorems": [
    "Axl.C16_trim"
   ],
   "note": "Array-level model, any string and any bytes after it; result unique, idempotent, nothing written beyond."
  },
  {
   "property": "C17",
   "status": "partial",
   "theorems": [
    "Axl.C17_join_split_partial",
    "Axl.C17_split_many",
    "Axl.C17_split_join",
    "Axl.C17_empty_string_lost",
    "Axl.C17_clean_split"
   ],
   "note": "Any non-empty string; several separators too; the empty string is split into nothing (witness theorem). Also split after join, and clean_split."
  },
  {
   "property": "C18",
   "status": "partial",
   "theorems": [
    "Axl.C18_replace",
    "Axl.C18_remove_first",
    "Axl.C18_remove_all_partial",
    "Axl.C18_remove_deletes_too_much",
    "Axl.C18_remove_writes_out_of_bounds"
   ],
   "note": "replace and remove-first in full; remove-all unless the string ends with a rotation of the pattern, where it deletes too much or writes out of bounds (witness theorems)."
  },
  {
   "property": "C19",
   "status": "partial",
   "theorems": [
    "Axl.C19_cmp",
    "Axl.C19_casecmp",
    "Axl.C19_stream_casecmp",
    "Axl.C19_memcmp",
    "Axl.C19_stream_cmp_partial",
    "Axl.C19_stream_cmp_zero_and_empty",
    "Axl.C19_to_lower",
    "Axl.C19_to_upper"
   ],
   "note": "cmp, casecmp, stream_casecmp and memcmp in full; stream_cmp for one byte or more and a non-empty first string (false otherwise, proved)."
  },
  {
   "property": "C20",
   "status": "proved",
   "theorems": [
    "Axl.C20_content_round_trip",
    "Axl.C20_attribute_round_trip",
    "Axl.C20_translate",
    "Axl.C20_cdata_round_trip_partial",
    "Axl.C20_cdata_end_not_restored",
    "Axl.C20_cdata_is_escaped"
   ],
   "note": "Any number of text contents and attribute values; the translation in general; CDATA only without \"]]>\" (witness theorems for the rest)."
  },
  {
   "property": "C21",
   "status": "partial",
   "theorems": [
    "Axl.C21_escape_size_partial",
    "Axl.C21_escape_size_c_string",
    "Axl.C21_cut_inside_cdata_end_overflows"
   ],
   "note": "Any content bytes, both modes; C strings with no condition; a size that cuts \"]]>\" overflows (witness theorem)."
  },
  {
   "property": "C22",
   "status": "partial",
   "theorems": [
    "Axl.C22_attributes_are_a_map_partial",
    "Axl.C22_names",
    "Axl.C22_text_comes_back_partial",
    "Axl.C22_value_encoded_again_at_ten",
    "Axl.C22_value_trimmed",
    "Axl.C22_trimmed_lookup_changes_document"
   ],
   "note": "List and hash storage and both changes between them, any history; names and count in full for plain names; values unless special characters are stored when a removal leaves ten of eleven attributes, where they are encoded again (witness theorem). C22_value_trimmed in full: the trimmed lookup, which changes the value stored (witness theorem)."
  },
  {
   "property": "C23",
   "status": "proved",
   "theorems": [
    "Axl.C23_foreach",
    "Axl.C23_names_once",
    "Axl.C23_cursor"
   ],
   "note": "foreach with early stop and the cursor (from any position), on every store reached by any history."
  },
  {
   "property": "C24",
   "status": "partial",
   "theorems": [
    "Axl.Heap.C24_tree_partial",
    "Axl.Heap.C24_one_place",
    "Axl.Heap.C24_first_text_removed",
    "Axl.Heap.C24_last_text_removed",
    "Axl.Heap.C24_first_text_replaced",
    "Axl.Heap.C24_mixed_content_emptied",
    "Axl.Heap.C24_second_removal_loses_children",
    "Axl.Heap.C24_parent_after_deattach",
    "Axl.Heap.C24_transfer_to_itself"
   ],
   "note": "Pointer-level model of nodes and items with explicit freeing; any history that keeps a tree, removes or exchanges text through the item functions only between other items, empties no mixed content and removes a node only while it is in the tree; outside this the code leaves freed items reachable or loses children (witness theorems)."
  },
  {
   "property": "C25",
   "status": "proved",
   "theorems": [
    "Axl.Heap.C25_navigation",
    "Axl.Heap.C25_siblings",
    "Axl.Heap.C25_find_called",
    "Axl.Heap.C25_root_has_no_siblings",
    "Axl.Heap.C25_items"
   ],
   "note": "On every tree reached by the histories of C24; also get_next_called, get_previous_called, have_childs, is_empty, and the functions on items (axl_item_get_next, _previous, _parent, _data, axl_item_node_holder, _next, _previous)."
  },
  {
   "property": "C26",
   "status": "partial",
   "theorems": [
    "Axl.C26_node_dump_partial",
    "Axl.C26_doc_dump_partial",
    "Axl.C26_dump_at_partial",
    "Axl.C26_writable",
    "Axl.C26_no_pi_content",
    "Axl.C26_empty_comment",
    "Axl.C26_negative_tabular",
    "Axl.Dump.C26_flat_size_partial",
    "Axl.Dump.C26_no_document",
    "Axl.Dump.C26_no_root_refused",
    "Axl.Dump.C26_no_root_size"
   ],
   "note": "Plain and pretty, nodes and documents; the text is given by a separate layout specification; comments non-empty, every instruction with content, no negative tabular; outside this the dump reads or writes out of its memory (witness theorems). The allocation is exactly the text and its NUL."
  },
  {
   "property": "C27",
   "status": "partial",
   "theorems": [
    "Axl.C27_round_trip_partial",
    "Axl.C27_round_trip_pretty_partial",
    "Axl.C27_attrs_fine",
    "Axl.C27_empty_fine",
    "Axl.C27_example_fine",
    "Axl.C27_read_eq",
    "Axl.C27_white_text",
    "Axl.C27_slash_text",
    "Axl.C27_two_texts",
    "Axl.C27_text_after_comment",
    "Axl.C27_reference",
    "Axl.C27_section_end",
    "Axl.C27_instructions"
   ],
   "note": "Every tree whose names, values and texts can be written (FineDoc), plain and pretty; comments come back padded. False for the rest: a text beginning with '/>' first in a node without attributes, white-only, adjacent or leading-white texts, references, sections with their end mark and document instructions (witness theorems)."
  },
  {
   "property": "C28",
   "status": "partial",
   "theorems": [
    "Axl.C28_accepts_partial",
    "Axl.C28_rejects_partial",
    "Axl.C28_text_after_root",
    "Axl.C28_late_slash"
   ],
   "note": "Every input; what is accepted is in a separate grammar relating text and tree; what follows the root is not read (witness theorem). <name>/> is taken for an empty element (C28_late_slash)."
  },
  {
   "property": "C29",
   "status": "proved",
   "theorems": [
    "Axl.C29_parse_ends"
   ],
   "note": "Every input."
  },
  {
   "property": "C30",
   "status": "proved",
   "theorems": [
    "Axl.Heap.C30_iterate",
    "Axl.Heap.C30_deep_order",
    "Axl.Heap.C30_wide_order",
    "Axl.Heap.C30_stops",
    "Axl.Heap.C30_start_removed",
    "Axl.Heap.C30_start_parent",
    "Axl.Heap.C30_start_parent_case"
   ],
   "note": "The user function may go on, stop or remove the node it was given; C30_iterate and C30_start_removed for the node where the iteration starts, which may be any node. Removing a root that is in no document is not covered."
  },
  {
   "property": "C31",
   "status": "proved",
   "theorems": [
    "Axl.Heap.C31_content_at",
    "Axl.Heap.C31_content_at_empty",
    "Axl.Heap.C31_get",
    "Axl.Heap.C31_no_slash",
    "Axl.Heap.C31_empty_name",
    "Axl.Heap.C31_star_is_a_name",
    "Axl.Heap.C31_star_inside"
   ],
   "note": "Names that are not empty, have no slash and are not '*'. The documented wildcard is not implemented by the code: C31_star_is_a_name. A node without content gives an empty string and not the documented NULL: C31_content_at_empty."
  },
  {
   "property": "C32",
   "status": "partial",
   "theorems": [
    "Axl.C32_documents_partial",
    "Axl.C32_equivalence_partial",
    "Axl.C32_doc_are_equal_trims",
    "Axl.C32_nodes_partial",
    "Axl.C32_items_not_compared",
    "Axl.C32_pi_without_content"
   ],
   "note": "Partial: documents in full for trees without a NUL inside texts and whose instructions have content (an instruction without content is not equal to itself: C32_pi_without_content); axl_node_are_equal characterised exactly, and it does not compare the items (C32_items_not_compared)."
  },
  {
   "property": "C33",
   "status": "partial",
   "theorems": [
    "Axl.C33_copy_partial",
    "Axl.C33_copy_equal",
    "Axl.C33_reference",
    "Axl.Heap.C33_apart",
    "Axl.Heap.C33_freed_apart",
    "Axl.Heap.C33_without_childs"
   ],
   "note": "Partial: trees without entity references (their copy has no data) and without a NUL inside texts. That the copy shares no node or item with the tree copied, writes none of it and outlives it is proved over the memory of C24 (C33_apart, C33_freed_apart), where texts and attributes are values."
  },
  {
   "property": "C34",
   "status": "partial",
   "theorems": [
    "Axl.Notes.C34_annotate_get_partial",
    "Axl.Notes.C34_typed",
    "Axl.Notes.C34_int",
    "Axl.Notes.C34_old_parent"
   ],
   "note": "Partial: the topmost ancestor must have no parent according to axl_node_get_parent; a node taken out of its parent still finds the annotations of that parent (C34_old_parent). Keys are not NULL."
  },
  {
   "property": "C35",
   "status": "partial",
   "theorems": [
    "Axl.Dtd.C35_accepted_partial",
    "Axl.Dtd.C35_words_accepted_partial",
    "Axl.Dtd.C35_conforms_partial",
    "Axl.Dtd.C35_left_out",
    "Axl.Dtd.C35_half_matched",
    "Axl.Dtd.C35_plus_of_nothing",
    "Axl.Dtd.C35_refused",
    "Axl.Dtd.C35_parsed_partial"
   ],
   "note": "Partial: sound for the content models in Content.exact, complete for those in Content.total, and for whole documents against DTDs of those classes without ANY; the classes are decidable and stated in Spec/DtdContent.lean. False for the others: C35_left_out, C35_half_matched, C35_plus_of_nothing (accepted though not in the model) and C35_refused. Character data in element content is not rejected by the code and not part of the claim."
  },
  {
   "property": "C36",
   "status": "partial",
   "theorems": [
    "Axl.Dtd.C36_terminates_partial",
    "Axl.Dtd.C36_children_partial",
    "Axl.Dtd.C36_never_ends",
    "Axl.Dtd.C36_repeated_optional",
    "Axl.Dtd.C36_any_root",
    "Axl.Dtd.C36_any_never_ends",
    "Axl.Dtd.C36_parsed_partial"
   ],
   "note": "Partial: DTDs without ANY whose content models are in Content.ends, every document. False for others: (a?)* and (a?,b)* never end (C36_never_ends), nor does a root declared ANY (C36_any_never_ends)."
  },
  {
   "property": "C37",
   "status": "partial",
   "theorems": [
    "Axl.Dtd.C37_attributes_partial",
    "Axl.Dtd.C37_under_any",
    "Axl.Dtd.C37_missing_id",
    "Axl.Dtd.C37_missing_id_refused",
    "Axl.Dtd.C37_no_attlist",
    "Axl.Dtd.C37_parsed_partial"
   ],
   "note": "Partial: DTDs without ANY and documents whose nodes have their ID attribute where one is declared. False otherwise: nodes under ANY are not checked (C37_under_any), a missing ID puts a NULL key in the table (C37_missing_id, C37_missing_id_refused). Nodes without ATTLIST are not restricted (C37_no_attlist)."
  },
  {
   "property": "C38",
   "status": "partial",
   "theorems": [
    "Axl.NsState.C38_validate_partial",
    "Axl.NsState.C38_cmp_partial",
    "Axl.NsState.C38_called_partial",
    "Axl.NsState.C38_find_partial",
    "Axl.NsState.C38_not_a_declaration",
    "Axl.NsState.C38_xml_prefix",
    "Axl.NsState.C38_removed_declaration"
   ],
   "note": "Proved for every tree of C24, every annotation history and all attributes made through the API: the answer of axl_ns_doc_validate, axl_ns_node_cmp after it, and the children, siblings and descendants found by name and namespace. Partial: attributes that begin with xmlns without being declarations are excluded (C38_not_a_declaration shows the code takes them for declarations), the first validation only (C38_removed_declaration shows that a later one keeps removed declarations), and the xml prefix is not predeclared (C38_xml_prefix)."
  },
  {
   "property": "C39",
   "status": "proved",
   "theorems": [
    "Axl.C39_accepts",
    "Axl.C39_rejects",
    "Axl.C39_answers",
    "Axl.C39_string",
    "Axl.C39_text",
    "Axl.C39_wrong_arguments",
    "Axl.C39_form_only"
   ],
   "note": "Any bytes, explicit length or C string; the index of the first bad character is exact. The form is what is checked: overlong forms and surrogates are accepted (theorem)."
  },
  {
   "property": "C40",
   "status": "partial",
   "theorems": [
    "Axl.C40_decoder",
    "Axl.C40_file_partial",
    "Axl.C40_any_reader_partial",
    "Axl.C40_expansion",
    "Axl.C40_memory",
    "Axl.C40_not_initialised"
   ],
   "note": "The decoder in full, with the ten tables checked against the standard; through the stream of a file for every buffer and read sizes, unless a refill happens with the buffer consumed while it was to be expanded, or a variable not initialised is 2; documents in memory are cut (witness theorems)."
  },
  {
   "property": "C41",
   "status": "partial",
   "theorems": [
    "Axl.C41_scope_partial",
    "Axl.C41_end_of_element",
    "Axl.C41_two_attributes",
    "Axl.C41_empty_element",
    "Axl.C41_after_comment"
   ],
   "note": "Partial: documents in which the elements that ask to preserve, and those in them, have one attribute each (none if empty), and white spaces that do not follow a comment or instruction. False for the others: four witness theorems."
  },
  {
   "property": "C42",
   "status": "proved",
   "theorems": [
    "Axl.C42_document",
    "Axl.C42_node"
   ],
   "note": "Lists of instructions of documents and nodes, in full."
  },
  {
   "property": "C43",
   "status": "partial",
   "theorems": [
    "Axl.C43_no_undefined_behaviour_partial",
    "Axl.C43_short_standalone"
   ],
   "note": "Every input whose standalone value, if present, has two bytes or more; otherwise three bytes of a shorter block are compared (witness theorem). Memory of the stream functions is modelled as lists, see DESIGN.md."
  },
  {
   "property": "C44",
   "status": "partial",
   "theorems": [
    "Axl.C44_open",
    "Axl.C44_refill",
    "Axl.C44_remains",
    "Axl.C44_skip",
    "Axl.C44_inspect_partial",
    "Axl.C44_inspect_sound",
    "Axl.C44_until_character_partial",
    "Axl.C44_until_buffered_partial",
    "Axl.C44_split_terminator",
    "Axl.C44_last_byte",
    "Axl.C44_utf8_split"
   ],
   "note": "Refill, remains and white space in full; looking for a chunk on regular files; reading up to a character that is not the last byte, and up to any chunk once the file is read. A terminator split by a read is missed and the UTF-8 check fails on a split character (witness theorems)."
  },
  {
   "property": "C45",
   "status": "partial",
   "theorems": [
    "Axl.C45_accepts_partial",
    "Axl.C45_slash_content",
    "Axl.C45_empty_comment",
    "Axl.C45_end_tag",
    "Axl.C45_around_equal"
   ],
   "note": "Partial: no empty comments, no white space around '=' of an attribute, at most one after the name of an end tag, no content beginning with '/>' just after '<name>' (false there: C45_empty_comment, C45_around_equal, C45_end_tag, C45_slash_content); document type up to its first '>'. White-only texts are dropped and a text after a comment or instruction loses its leading white spaces, as Spec/Source says."
  },
  {
   "property": "C46",
   "status": "partial",
   "theorems": [
    "Axl.Dtd.C46_declarations",
    "Axl.Dtd.C46_accepted_partial",
    "Axl.Dtd.C46_only_valid",
    "Axl.Dtd.C46_exactly_partial",
    "Axl.Dtd.C46_both_separators",
    "Axl.Dtd.C46_separator_of_group",
    "Axl.Dtd.C46_choice_of_groups",
    "Axl.Dtd.C46_recursive"
   ],
   "note": "Reading the declarations in full; DTDs that break a constraint are refused in full (C46_only_valid), and lists with both separators after names (C46_both_separators; not after groups: C46_separator_of_group). Accepting them is partial: elements not within their own content (C46_recursive: the search for the root never ends), and the content found is the one written if there is a name before the last separator of every list (C46_choice_of_groups). As the library reads DTDs: no NOTATION, no external entities, no empty attribute list; names without the characters of the syntax."
  },
  {
   "property": "C47",
   "status": "partial",
   "theorems": [
    "Axl.Dtd.C47_ends_entities_partial",
    "Axl.Dtd.C47_safe",
    "Axl.Dtd.C47_ends_partial",
    "Axl.Dtd.C47_one_answer",
    "Axl.Dtd.C47_recursive_entity"
   ],
   "note": "Memory in full. Termination is partial: texts without parameter entity references, and texts whose parameter entities meet No Recursion of XML and have no markup in their values, whose elements are not within themselves; false otherwise (C47_recursive_entity, C46_recursive). Declarations inside the value of an entity are not covered. C47_one_answer: the fuel of the model does not change the answer."
  },
  {
   "property": "C48",
   "status": "proved",
   "theorems": [
    "Axl.Dtd.C48_well_formed",
    "Axl.Dtd.C48_not_xml"
   ],
   "note": "Every text. The text itself may be other than XML (C48_not_xml)."
  },
  {
   "property": "C49",
   "status": "partial",
   "theorems": [
    "Axl.Dtd.C49_element",
    "Axl.Dtd.C49_attr",
    "Axl.Dtd.C49_constraints_partial",
    "Axl.Dtd.C49_no_constraints",
    "Axl.Dtd.C49_entity",
    "Axl.Dtd.C49_entity_exists",
    "Axl.Dtd.C49_top_level",
    "Axl.Dtd.C49_root",
    "Axl.Dtd.C49_walk",
    "Axl.Dtd.C49_walk_text",
    "Axl.Dtd.C49_walk_limits",
    "Axl.Dtd.C49_walk_unclosed"
   ],
   "note": "Partial for axl_dtd_get_attr_contraints only: it reads NULL for an element without attributes (C49_no_constraints)."
  },
  {
   "property": "C50",
   "status": "partial",
   "theorems": [
    "Axl.Dtd.C50_compares_partial",
    "Axl.Dtd.C50_itself_partial",
    "Axl.Dtd.C50_same_text_partial",
    "Axl.Dtd.C50_safe_partial",
    "Axl.Dtd.C50_other_names",
    "Axl.Dtd.C50_more_items",
    "Axl.Dtd.C50_other_default",
    "Axl.Dtd.C50_not_itself"
   ],
   "note": "Partial: what the answer true means exactly (DtdsMatch), and when no NULL is read. False in general: C50_other_names, C50_more_items, C50_other_default, C50_not_itself."
  },
  {
   "property": "C51",
   "status": "partial",
   "theorems": [
    "Axl.C51_history_partial",
    "Axl.C51_texts",
    "Axl.C51_cdata_size",
    "Axl.C51_cdata_size_negative"
   ],
   "note": "Partial: a CDATA section must be given with its length or -1 (C51_cdata_size, C51_cdata_size_negative show what happens with another size) and without its end mark. Children that are nodes are one kind of item here (C24 is about them)."
  },
  {
   "property": "C52",
   "status": "partial",
   "theorems": [
    "Axl.C52_read_again_partial",
    "Axl.C52_same_text_partial",
    "Axl.C52_pretty_partial",
    "Axl.C52_eleven_attributes",
    "Axl.C52_instructions",
    "Axl.C52_instruction_without_content",
    "Axl.C52_preserved",
    "Axl.C52_slash_content"
   ],
   "note": "Partial: documents without xml:space=preserve, without instructions out of the root, whose instructions have content; ten attributes at most for each element for the same text; texts not beside marks for the pretty dump. False outside: C52_eleven_attributes, C52_instructions, C52_instruction_without_content, C52_preserved, C52_slash_content."
  },
  {
   "property": "C53",
   "status": "partial",
   "theorems": [
    "Axl.C53_parse_memory_partial",
    "Axl.C53_all_released_partial",
    "Axl.C53_defined",
    "Axl.C53_null",
    "Axl.C53_ending_left",
    "Axl.C53_leak",
    "Axl.C53_global_index"
   ],
   "note": "Partial: the header of C43 apart, and one block stays when an instruction is followed by a name that is not in a tag and nothing else (C53_leak); the global index of an error is not a place of the text (C53_global_index). The tree of the document is not made of blocks here (C24 is); allocations do not fail."
  },
  {
   "property": "C54",
   "status": "partial",
   "theorems": [
    "Axl.Babel.C54_unknown",
    "Axl.Babel.C54_short",
    "Axl.Babel.C54_utf8_partial",
    "Axl.Babel.C54_other",
    "Axl.Babel.C54_undeclared",
    "Axl.Babel.C54_iso_partial",
    "Axl.Babel.C54_iso_seven_bits",
    "Axl.Babel.C54_utf16",
    "Axl.Babel.C54_mark_not_checked",
    "Axl.Babel.C54_unknown_encoding",
    "Axl.Babel.C54_white_before",
    "Axl.Babel.C54_second_mark",
    "Axl.Babel.C54_cut",
    "Axl.Babel.C54_no_error"
   ],
   "note": "Partial: a document of less than four bytes, or not in the UTF-8 it declares, is refused without an error (C54_short, C54_no_error); a conversion is cut to the size it had before, so one character of two bytes loses the end of the document (C54_iso_partial, C54_cut); the mark of UTF-8 alone asks for no check (C54_mark_not_checked), an unknown encoding is said to be utf-8 (C54_unknown_encoding), white spaces before the root are refused (C54_white_before)."
  },
  {
   "property": "C55",
   "status": "partial",
   "theorems": [
    "Axl.C55_missing",
    "Axl.C55_fits_partial",
    "Axl.C55_any_size_partial",
    "Axl.C55_leading_white",
    "Axl.C55_last_tag",
    "Axl.C55_split_comment"
   ],
   "note": "Partial: exact (documents and errors) for files of up to 8192 bytes where a text that begins with white space is followed by nine bytes at least; for files of any size, the documents without comments, instructions and CDATA sections in files that end with white space. False outside: C55_leading_white (white space lost), C55_last_tag (8193 bytes that end with '>'), C55_split_comment. Reads give what they are asked for (C44 has the others)."
  },
  {
   "property": "C56",
   "status": "partial",
   "theorems": [
    "Axl.C56_doc_written_partial",
    "Axl.C56_node_written_partial",
    "Axl.C56_close",
    "Axl.C56_node_lines",
    "Axl.C56_read_back_partial",
    "Axl.C56_read_back_pretty_partial",
    "Axl.C56_lost"
   ],
   "note": "Partial: a failure of fclose is not seen, so axl_true can come with an empty file (C56_close); axl_node_dump_to_file writes the text of the pretty dump (C56_node_lines). Read back: plain for texts of up to 8192 bytes, pretty also for any size without comments, instructions and CDATA sections; no text begins with white space. C56_lost: an element with a text of 8134 characters is written and is an error when it is read from the file."
  },
  {
   "property": "C57",
   "status": "partial",
   "theorems": [
    "Axl.C57_released_once_partial",
    "Axl.C57_all_can_be_freed_partial",
    "Axl.C57_name_leaks",
    "Axl.C57_item_leaks",
    "Axl.C57_free_full_leaves_children",
    "Axl.C57_deattached_dies_with_document",
    "Axl.C57_neither_first"
   ],
   "note": "Partial: axl_node_set_name_ref on a name that the parser read and axl_node_replace with a node that has an item of its own leak (C57_name_leaks, C57_item_leaks); the removal of a first or last text is excluded (C24 has it). axl_node_free_full does not free the children it is asked to free (C57_free_full_leaves_children); a node taken out of a document cannot be freed after the document (C57_deattached_dies_with_document), so two documents with nodes of each other can never be freed (C57_neither_first). Spec/Own (fits) says when a call is made as it is meant; the items of a node and the pairs of a hash are lists here, allocations do not fail."
  },
  {
   "property": "C58",
   "status": "partial",
   "theorems": [
    "Axl.C58_strdup_printf",
    "Axl.C58_strdup_printf_len_partial",
    "Axl.C58_printf_len_failure",
    "Axl.C58_printfv_twice",
    "Axl.C58_printf_buffer_partial",
    "Axl.C58_printf_buffer_size",
    "Axl.C58_printf_len_partial",
    "Axl.C58_printf_len_failure_is_zero",
    "Axl.C58_strdup_n",
    "Axl.C58_strdup_n_undefined",
    "Axl.C58_strv_num",
    "Axl.C58_freev",
    "Axl.C58_null"
   ],
   "note": "What the C library makes of a format is a parameter. Partial: a failure of the C library is not seen by axl_stream_strdup_printf_len (C58_printf_len_failure) nor told as -1 by axl_stream_printf_len (C58_printf_len_failure_is_zero); a buffer of size 0 gives -1 (C58_printf_buffer_size); axl_stream_strdup_printfv built without vasprintf uses its arguments twice (C58_printfv_twice, as its own documentation warns). The branches for Windows are not modelled."
  },
  {
   "property": "C59",
   "status": "partial",
   "theorems": [
    "Axl.C59_doc_strings",
    "Axl.C59_doc_of_pieces_partial",
    "Axl.C59_cuts_do_not_matter",
    "Axl.C59_node_of_pieces_partial",
    "Axl.C59_node_parse_partial",
    "Axl.C59_error_not_optional",
    "Axl.C59_no_strings",
    "Axl.C59_node_parse_no_text"
   ],
   "note": "Partial: without a place for the error nothing is ever parsed from strings, although it is documented as optional (C59_error_not_optional); no strings at all give no error (C59_no_strings); the header of C43 apart. axl_node_parse where there is vasprintf. That the node keeps its document with it and frees it is not part of this model."
  },
  {
   "property": "C60",
   "status": "proved",
   "theorems": [
    "Axl.C60_reading",
    "Axl.C60_stable",
    "Axl.C60_root_name"
   ],
   "note": "Names of nodes stand for all that is read (texts, attributes): what matters is who frees what. node.doc and attribute cursors are not among the calls (C61 has them)."
  },
  {
   "property": "C61",
   "status": "partial",
   "theorems": [
    "Axl.C61_careful_partial",
    "Axl.C61_not_doc_attribute",
    "Axl.C61_not_new_root",
    "Axl.C61_not_parent_dropped",
    "Axl.C61_not_three_deep",
    "Axl.C61_not_cursor",
    "Axl.C61_not_removed",
    "Axl.C61_not_root_none",
    "Axl.C61_not_replaced_root"
   ],
   "note": "Partial: for programs that take the care the binding does not take (Spec/Py, careful): nothing in use is let go, and a node is placed once, in a node that knows its document or that its object frees. False otherwise: C61_not_doc_attribute, C61_not_new_root, C61_not_parent_dropped, C61_not_three_deep, C61_not_cursor, C61_not_removed, C61_not_root_none, C61_not_replaced_root. Not modelled: remove (False), replace, deattach, set_empty, axl.Error, axl.Dtd."
  },
  {
   "property": "C62",
   "status": "partial",
   "theorems": [
    "Axl.DtdMem.C62_parse",
    "Axl.DtdMem.C62_free",
    "Axl.DtdMem.C62_error_partial",
    "Axl.DtdMem.C62_safe",
    "Axl.DtdMem.C62_not_wrong_model",
    "Axl.DtdMem.C62_not_twice"
   ],
   "note": "Proved for every text: no use after release, what is left after success is the DTD and axl_dtd_free releases it all, one error. Partial: after an error everything is released unless the wrong declaration is an element whose content model is wrong or that was declared before (Spec.DtdMem.Loses); then exactly that element is left. False otherwise: C62_not_wrong_model, C62_not_twice. Allocation does not fail; lists and stacks are one block each."
  },
  {
   "property": "C63",
   "status": "partial",
   "theorems": [
    "Axl.StreamPush.C63_history",
    "Axl.StreamPush.C63_push_partial",
    "Axl.StreamPush.C63_not_after_peek"
   ],
   "note": "Histories in full, against a separate view (Spec/StreamPush). Partial: a push accepts the look before it, so that after axl_stream_peek the first characters pushed are skipped (C63_not_after_peek). Streams in memory; sizes not negative; chunks with their length."
  },
  {
   "property": "C64",
   "status": "partial",
   "theorems": [
    "Axl.C64_tags",
    "Axl.C64_shown_partial",
    "Axl.C64_not_value",
    "Axl.C64_not_reference",
    "Axl.C64_not_empty",
    "Axl.C64_not_instruction"
   ],
   "note": "Tags: proved for every content of texts, sections and comments. Partial: names and values are not escaped (C64_not_value), & is not escaped (C64_not_reference), an element without attributes and content is shown open and not closed (C64_not_empty), instructions and references are not shown (C64_not_instruction)."
  },
  {
   "property": "C65",
   "status": "partial",
   "theorems": [
    "Axl.C65_memory",
    "Axl.C65_file_partial",
    "Axl.C65_call",
    "Axl.C65_not_last_byte",
    "Axl.C65_not_place"
   ],
   "note": "Memory in full. Partial: over a file the last byte is lost when the last piece comes in several reads (C65_not_last_byte), otherwise exact (C65_file_partial); the stream is left one byte after its end (C65_not_place). Separators of one character."
  },
  {
   "property": "C66",
   "status": "partial",
   "theorems": [
    "Axl.C66_header_partial",
    "Axl.C66_invalid",
    "Axl.C66_not_backslash",
    "Axl.C66_not_name",
    "Axl.C66_not_dtd"
   ],
   "note": "Partial: paths whose last part makes an identifier of C and DTDs without backslash or NUL, but for the last byte of a file read in several times (C65). Not of the code for a backslash (C66_not_backslash), for other names (C66_not_name); the string is not always a DTD (C66_not_dtd)."
  },
  {
   "property": "C67",
   "status": "partial",
   "theorems": [
    "Axl.C67_reading_partial",
    "Axl.C67_accepts",
    "Axl.C67_one_reading",
    "Axl.C67_safe",
    "Axl.C67_long_names",
    "Axl.C67_not_exclusion",
    "Axl.C67_not_dependency",
    "Axl.C67_not_negative",
    "Axl.C67_not_help",
    "Axl.C67_not_short",
    "Axl.C67_not_path",
    "Axl.C67_define",
    "Axl.C67_undef"
   ],
   "note": "Partial: two options that exclude one another are only reported (C67_not_exclusion), and dependencies of the options installed later are not checked then (C67_not_dependency). Missing: what the calls that configure do (exarg_set_obligatory, exarg_accept_free_args, the short names that exarg_install_arg refuses): the theorems are about the configuration reached, and edits of these three survive. atoi is any function. Names of the options as installed: a short name may be hidden (C67_not_short), names that begin with help, usage or ? (C67_not_help), values such as -1 (C67_not_negative) and paths such as /a.xml before any option (C67_not_path) are not usable."
  },
  {
   "property": "C68",
   "status": "partial",
   "theorems": [
    "Axl.C68_actions_partial",
    "Axl.C68_input",
    "Axl.C68_safe_partial",
    "Axl.C68_current",
    "Axl.C68_not_both",
    "Axl.C68_not_status"
   ],
   "note": "Partial: not of the code for --htmlize with --dtd-to-c, undefined behaviour (C68_not_both), and for the status (C68_not_status). Whether a file is a document or a DTD is a parameter (C01 and others say when)."
  },
  {
   "property": "C69",
   "status": "proved",
   "theorems": [
    "Axl.C69_nodes_in_memory",
    "Axl.C69_destroyed_exactly_once",
    "Axl.C69_cursor_reads_each_pair_once",
    "Axl.C69_cursor_remove_all",
    "Axl.C69_copy_is_equal",
    "Axl.C69_cursor_last"
   ],
   "note": "Refinement of the table with lists (C09 to C13) by cells in the pieces of the factory (C17), with next pointers and slots that are pointers. The copies have their own factory and memory. axl_hash_cursor_last does not look at the first slot (C13 has the finding)."
  },
  {
   "property": "C70",
   "status": "partial",
   "theorems": [
    "Axl.C70_list",
    "Axl.C70_list_reuses",
    "Axl.C70_list_copy",
    "Axl.C70_not_list_copy_lost",
    "Axl.C70_not_list_copy",
    "Axl.C70_not_list_copy_leak",
    "Axl.C70_stack",
    "Axl.C70_binary_stack_partial",
    "Axl.C70_not_binary_stack",
    "Axl.C70_hash_first_table",
    "Axl.C70_hash_growth_partial",
    "Axl.C70_not_hash_growth_ends",
    "Axl.C70_not_hash_growth_visits",
    "Axl.C70_not_hash_new",
    "Axl.C70_not_hash_block",
    "Axl.C70_not_hash_remove",
    "Axl.C70_hash_remove_absent",
    "Axl.C70_hash_remove_asks",
    "Axl.C70_not_hash_next_block",
    "Axl.C70_memory_given",
    "Axl.C70_hash_memory_given"
   ],
   "note": "Lists and stacks: proved in full, for all histories with any refusals. False of the code for binary stacks (the array inside of them), for hash tables that cannot grow (lookups, existence and the number of items stay right; the pairs visited, removals and later insertions do not), for the factory of the nodes, and for axl_list_copy: there are witnesses for each, and a general theorem that the insertion after a failed growth never ends. Not covered: the rest of the library."
  },
  {
   "property": "C71",
   "status": "partial",
   "theorems": [
    "Axl.C71_missing",
    "Axl.C71_fits_partial",
    "Axl.C71_any_size_partial",
    "Axl.C71_split",
    "Axl.C71_split_character",
    "Axl.C71_iso"
   ],
   "note": "Proved for files of up to 8192 bytes that declare no part of ISO 8859, in full (documents, errors and NULL), but for texts that begin with white space near the end; and for 7 bit documents of any size that end with white space and have no comments, instructions, CDATA sections. False of the code outside: C71_split says that every document that declares UTF-8 and has the end of the first 8192 bytes inside a character gives NULL without an error, with a witness; and a document in ISO 8859-1 cut in memory (C54) is complete from a file. Missing: a theorem for files with a decoder."
  },
  {
   "property": "C72",
   "status": "partial",
   "theorems": [
    "Axl.C72_missing",
    "Axl.C72_fits_partial",
    "Axl.C72_any_size_partial",
    "Axl.C72_split_comment"
   ],
   "note": "Proved in full for files of up to 8192 bytes (declarations, errors, loops), with comments and parameter entities; and for files of any size that end with white space and have no comment and no %, that each DTD of the content is the DTD of the file. False of the code outside: C72_split_comment is a DTD of 8211 bytes with a comment whose end comes in two reads, that is an error from a file. Missing: files of more than 8192 bytes with a % or that do not end with white space, and errors of such files."
  },
  {
   "property": "C73",
   "status": "partial",
   "theorems": [
    "Axl.C73_equal_partial",
    "Axl.C73_copy_partial",
    "Axl.C73_written_partial",
    "Axl.C73_read_again_partial",
    "Axl.C73_not_blank"
   ],
   "note": "Proved for every DTD and for the documents for which the comparison, the copy and the writing are proved (C32, C33, C27, C52): same answer, and if one does not end neither does the other. False of the code outside: C73_not_blank, a text of only white spaces is lost when it is written and read, and an element declared EMPTY becomes valid."
  },
  {
   "property": "C74",
   "status": "partial",
   "theorems": [
    "Axl.C74_answer_partial",
    "Axl.C74_valid_partial",
    "Axl.C74_files_partial",
    "Axl.C74_not_text",
    "Axl.C74_not_undeclared",
    "Axl.C74_not_empty",
    "Axl.C74_not_fixed",
    "Axl.C74_not_references"
   ],
   "note": "The specification (Spec/Valid.lean) speaks only of the two texts. Proved for the DTDs and documents of the classes of C35, C37, C45 and C46: both are read, the validation answers, and the answer is true exactly when the document has what axl_dtd_validate checks; documents valid as XML says are found valid if their fixed attributes are written; the same from files of up to 8192 bytes. False of the code, with witnesses: text where only elements are declared, attributes of an element without declarations, a comment in an EMPTY element and IDREFS without identifiers are found valid; a fixed attribute left out is not."
  },
  {
   "property": "C75",
   "status": "partial",
   "theorems": [
    "Axl.Dtd.C75_replaced_partial",
    "Axl.Dtd.C75_accepted_partial",
    "Axl.Dtd.C75_exactly_partial",
    "Axl.Dtd.C75_refused",
    "Axl.Dtd.C75_not_white",
    "Axl.Dtd.C75_not_reference",
    "Axl.Dtd.C75_not_definitions",
    "Axl.Dtd.C75_not_content",
    "Axl.Dtd.C75_not_declarations",
    "Axl.Dtd.C75_not_names"
   ],
   "note": "The specification (Spec/DtdRefs.lean) replaces each reference by the value of the first declaration of its entity and a space, and so in the values. Proved for references at the place of the type of an attribute whose value begins with neither white space nor a reference: the parse of the two texts is the same, and accepted exactly when the replaced text meets the validity constraints. Every other reference at that place, to an entity not declared or with another value, is refused (C75_refused). False of the code elsewhere, with witnesses: a value that begins with white space or with a reference, whole definitions, content models and declarations in entities are refused, and a reference within a content model is read as the name of an element."
  },
  {
   "property": "C76",
   "status": "partial",
   "theorems": [
    "Axl.Heap.C76_own_cells_partial",
    "Axl.Heap.C76_threads_partial",
    "Axl.Heap.C76_any_order_partial",
    "Axl.Heap.C76_shared"
   ],
   "note": "Proved for any number of threads, programs and schedules over the calls of C24 (with copies, removals, replacements, transfers and frees) on the heap of nodes and items with pointers. Partial: the programs keep, alone, to what C24 asks (outside it a thread alone already goes wrong); the unit of the schedule is a whole call (but C76_own_cells_partial: a call neither reads nor writes a cell of another thread, so the accesses of two calls commute); attributes and texts are values, not cells. The only mutable variables of the library that are not in a structure given by the caller are the flags of axl_log (src/axl_log.c:51-56) and the functions set by axl_babel_init (src/axl_doc.c:423-427), which these calls do not touch. C76_shared: without locks two threads may not share nodes."
  },
  {
   "property": "C77",
   "status": "partial",
   "theorems": [
    "Axl.Heap.C77_own_cells_partial",
    "Axl.Heap.C77_navigation_partial",
    "Axl.Heap.C77_not_removed_twice"
   ],
   "note": "The frame rule of the tree functions, on the heap with pointers, where a read or write of a cell that is not there is undefined behaviour: for every call of C24 after every history of C24 the call succeeds on the part of the heap with the cells of its trees, and on the whole heap gives that result with the other cells unchanged. Partial: the limits of C24 (C77_not_removed_twice: axl_node_remove of a node that was already taken out writes to its old parent, in another tree); attributes and texts are values. C76_own_cells_partial uses it: no two threads use the same cell."
  },
  {
   "property": "C78",
   "status": "partial",
   "theorems": [
    "Axl.C78_wrap",
    "Axl.C78_one_way",
    "Axl.C78_usage",
    "Axl.C78_help_partial",
    "Axl.C78_no_description",
    "Axl.C78_basename",
    "Axl.C78_not_disabled"
   ],
   "note": "Exact: C78_wrap gives the lines and C78_one_way says that there is one way to cut a text so; C78_usage and C78_help_partial give the whole text printed. Partial: an option without a description does not end its line (C78_no_description); exarg_disable_help does nothing (C78_not_disabled)."
  },
  {
   "property": "C79",
   "status": "partial",
   "theorems": [
    "Axl.C79_tree",
    "Axl.C79_dump",
    "Axl.C79_text_partial",
    "Axl.C79_round_trip_partial",
    "Axl.C79_compare_partial"
   ],
   "note": "C79_tree and C79_dump: for all histories of C24 the functions on pointers are those on the tree, without a condition on the tree. Partial where C26, C27 and C32 are: trees with an empty comment or an instruction without content are not written, and some trees are not read back as they are; the histories are those of C24."
  },
  {
   "property": "C80",
   "status": "partial",
   "theorems": [
    "Axl.C80_edit_attributes_partial",
    "Axl.C80_read",
    "Axl.C80_edit_partial"
   ],
   "note": "C80_read in full for every document accepted (the dump unless an attribute was left without value, C26). C80_edit_partial: histories of C24 after the document is read; reading back for the trees of C27. C80_edit_attributes_partial: the same with contents, copies and attributes (set, removed, trimmed), the attributes read being edited with the others (also where C22 is false, which is stated as it is). The calls of the parser are given for the tree it accepts (Model/Load.lean); the pools of the document are not represented."
  },
  {
   "property": "C81",
   "status": "partial",
   "theorems": [
    "Axl.C81_attributes_partial",
    "Axl.C81_document_partial"
   ],
   "note": "Calls of C24, axl_node_copy with the attributes, axl_node_set_content, axl_node_set_cdata_content (without the end of a section, C20), axl_node_set_attribute, axl_node_remove_attribute, axl_node_get_attribute_value_trimmed (which trims the value stored), interleaved. A copy has the strings and the attributes that the original had when it was made. Missing: what C22, C24 and C27 do not have."
  },
  {
   "property": "C82",
   "status": "partial",
   "theorems": [
    "Axl.Err.C82_errors_partial",
    "Axl.Err.C82_no_leak",
    "Axl.Err.C82_second_report_leaks",
    "Axl.Err.C82_report_without_text",
    "Axl.Err.C82_not_new_without_memory",
    "Axl.Err.C82_report_without_memory",
    "Axl.Err.C82_report_without_vasprintf",
    "Axl.Err.C82_report_nowhere",
    "Axl.Err.C82_report_at_partial",
    "Axl.Err.C82_around"
   ],
   "note": "Refinement: blocks of memory against what each variable shows, by induction over the history. False of the code: a second report in the same variable loses the first error; a report whose text could not be made is taken for no error and its text is NULL, not the documented string; without vasprintf a report with an argument is undefined behaviour; without memory for its text axl_error_new writes through NULL and axl_error_report leaves an error that is taken for none. C82_report_at_partial: a report with a stream, which reads inside of its memory and tells the bytes around the place. Missing: a library without vasprintf that runs out of memory, NUL bytes in the stream."
  },
  {
   "property": "C83",
   "status": "proved",
   "theorems": [
    "Axl.Link.C83_destroyed_once",
    "Axl.Link.C83_determined",
    "Axl.Link.C83_linked_twice",
    "Axl.Link.C83_parse"
   ],
   "note": "Induction over the history against a specification by places in it: the calls that link, the later calls that unlink. The list of the stream is the sequence of what was added (C02_always_return_1_appends). Not modelled: the memory of the stream itself."
  },
  {
   "property": "C84",
   "status": "proved",
   "theorems": [
    "Axl.Dtd.C84_root",
    "Axl.Dtd.C84_only_root",
    "Axl.Dtd.C84_no_root",
    "Axl.Dtd.C84_first_counts"
   ],
   "note": "Invariant of the search: the first element is inside the present one; at the end no element has it in its content. Of the code, and not of XML: if every element is in the content of some element, the search does not end (C84_no_root, cf. C46_recursive)."
  }
 ]
}
