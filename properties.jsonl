{"id": "C01", "title": "axlList behaves as a sequence under any history", "statement": "After any history of add / add_at / append / prepend / remove_first / remove_last / remove_at / unlink_first / unlink_last calls on an axlList, walking the list from its first element to the end, and from its last element to the beginning, gives one and the same sequence read in both directions, that sequence is the one obtained by performing the documented operations on an abstract sequence, axl_list_length is its length and axl_list_get_nth / get_first / get_last are its elements.", "quantifier": "every list, every finite history of operations, every element and position", "why_tests_cant": "linked-list corruption depends on the exact order of insertions and removals; tests sample a few histories", "anchors": ["src/axl_list.c: axl_list_add, axl_list_add_at, axl_list_append, axl_list_prepend, axl_list_remove_first, axl_list_remove_last, axl_list_remove_at, axl_list_unlink_first, axl_list_unlink_last, __axl_list_remove_selected_node, __axl_list_get_nth, axl_list_length"]}
{"id": "C02", "title": "axl_list_add keeps an ordered list ordered and never stores two equal elements", "statement": "If the comparison function given to axl_list_new is a consistent order (negative: the new element goes before, positive: after, zero: already there), then after any number of axl_list_add calls the elements are in that order, no two elements compare equal, and an element is in the list exactly when something equal to it was added.", "quantifier": "every consistent comparison function, every sequence of added elements", "why_tests_cant": "the scan runs from both ends at once, so a wrong comparison is visible only for particular lengths and positions", "anchors": ["src/axl_list.c: axl_list_add, axl_list_equal_int, axl_list_order_string"]}
{"id": "C03", "title": "axl_list_exists / remove / unlink find an element exactly when it is stored", "statement": "axl_list_exists (list, e) is true iff the list holds an element equal to e under its own comparison function, and axl_list_remove / axl_list_unlink take out that element and no other.", "quantifier": "every list content, every library comparison function (axl_list_equal_string, axl_list_order_string, axl_list_equal_int, axl_list_equal_ptr), every searched element", "why_tests_cant": "the lookup prunes from both ends, so a miss depends on where the element is", "anchors": ["src/axl_list.c: __axl_list_internal_lookup, axl_list_exists, axl_list_remove, axl_list_unlink, axl_list_equal_string, axl_list_equal_ptr"]}
{"id": "C04", "title": "axlList destroys every element exactly once", "statement": "For any history of list operations ending in axl_list_free, the destroy function configured is called exactly once on each element that was stored and not unlinked, and never on an element that was unlinked.", "quantifier": "every history of operations ending in axl_list_free", "why_tests_cant": "double frees and leaks show up only for particular histories", "anchors": ["src/axl_list.c: __axl_list_common_remove_selected_node, axl_list_free, axl_list_remove_first, axl_list_unlink_first"]}
{"id": "C05", "title": "axl_list_copy makes an independent equal list", "statement": "axl_list_copy gives a list whose sequence is the image, by the copy function, of the elements of the original in the same order, when the list was built with an appending comparison; the original list is not changed.", "quantifier": "every list content and every copy function", "why_tests_cant": "re-insertion goes through axl_list_add, whose result depends on the comparison function and the contents", "anchors": ["src/axl_list.c: axl_list_copy, axl_list_add"]}
{"id": "C06", "title": "A list cursor visits every element once and survives removal", "statement": "Starting from axl_list_cursor_first and stepping with axl_list_cursor_next until has_item is false visits the elements in order, each once; axl_list_cursor_remove / unlink at any position takes out exactly the current element and leaves the cursor on the following one, or on the previous one when there is no following one.", "quantifier": "every list content, every cursor position", "why_tests_cant": "off-by-one and dangling positions appear only at particular positions of particular lengths", "anchors": ["src/axl_list.c: axl_list_cursor_first, axl_list_cursor_next, axl_list_cursor_previous, axl_list_cursor_has_item, axl_list_cursor_remove, axl_list_cursor_unlink, axl_list_cursor_get"]}
{"id": "C07", "title": "axlStack is LIFO", "statement": "For any history of axl_stack_push / axl_stack_pop, pop returns the most recently pushed element that has not been popped, NULL exactly when the stack is empty, axl_stack_size counts the elements, axl_stack_foreach visits them from the top to the bottom until the function asks to stop, and axl_stack_free destroys each remaining element once.", "quantifier": "every history of pushes and pops", "why_tests_cant": "depends on arbitrary interleavings of push and pop", "anchors": ["src/axl_stack.c: axl_stack_push, axl_stack_pop, axl_stack_peek, axl_stack_size, axl_stack_is_empty, axl_stack_foreach, axl_stack_free"]}
{"id": "C08", "title": "axlBinaryStack is a LIFO of booleans", "statement": "For any history of axl_binary_stack_push / push_the_same / pop, the results of pop, peek, size and is_empty are those of a plain stack of booleans on which push_the_same repeats the top.", "quantifier": "every history of operations", "why_tests_cant": "the implementation is run-length encoded, so errors depend on run boundaries", "anchors": ["src/axl_stack.c: axl_binary_stack_push, axl_binary_stack_push_the_same, axl_binary_stack_pop, axl_binary_stack_peek, axl_binary_stack_size, axl_binary_stack_is_empty"]}
{"id": "C09", "title": "axlHash behaves as a finite map under any history, across resizes", "statement": "After any history of axl_hash_insert / axl_hash_insert_full / axl_hash_remove / axl_hash_delete, axl_hash_get (h, k) returns the last value inserted for k that was not removed afterwards and NULL otherwise, axl_hash_exists agrees with it, and axl_hash_items counts the distinct keys present; growing the table changes none of this. axl_hash_capacity is 0 before the first insertion and then the smallest multiple of the step that has room for the most pairs there were at a time.", "quantifier": "every hash function and every consistent key comparison, every step, every history", "why_tests_cant": "collisions and resizes depend on the hash of all keys and on the order of insertions", "anchors": ["src/axl_hash.c: axl_hash_insert_full, axl_hash_remove_common, axl_hash_get, axl_hash_exists, axl_hash_items, axl_hash_capacity, __axl_hash_internal_lookup"]}
{"id": "C10", "title": "axl_hash_foreach visits every stored pair exactly once", "statement": "axl_hash_foreach calls the function once for each stored pair, stopping right after the first call that returns true; the pairs visited are exactly the pairs that axl_hash_get would return.", "quantifier": "every reachable hash state, every function", "why_tests_cant": "depends on how pairs are spread over buckets", "anchors": ["src/axl_hash.c: axl_hash_foreach, axl_hash_foreach2"]}
{"id": "C11", "title": "axl_hash_copy makes an equal hash", "statement": "axl_hash_copy gives a hash where axl_hash_get returns, for every key, the copied value, with the same number of items, and leaves the source unchanged.", "quantifier": "every reachable hash state, every injective key copy", "why_tests_cant": "the copy is built with another capacity and re-hashed", "anchors": ["src/axl_hash.c: axl_hash_copy"]}
{"id": "C12", "title": "axlHash destroys keys and values exactly once", "statement": "For any history of insertions (including replacements), removals and deletions ending in axl_hash_free, the destroy functions stored with each pair run exactly once for that pair, except that axl_hash_delete runs none.", "quantifier": "every history ending in axl_hash_free", "why_tests_cant": "double frees show up only for particular replacement/removal histories", "anchors": ["src/axl_hash.c: axl_hash_insert_full, axl_hash_remove_common, axl_hash_free"]}
{"id": "C13", "title": "A hash cursor visits every stored pair exactly once, finds the last pair, and removes while traversing", "statement": "Starting at axl_hash_cursor_first (or a new cursor) and stepping with axl_hash_cursor_next until axl_hash_cursor_has_item is false visits each stored pair exactly once; axl_hash_cursor_has_next tells whether another pair follows; axl_hash_cursor_last selects the last pair of that order; and removing pairs with axl_hash_cursor_remove during the traversal neither skips nor repeats a pair.", "quantifier": "every reachable hash state", "why_tests_cant": "depends on which slots are occupied and by which chains", "anchors": ["src/axl_hash.c: axl_hash_cursor_new, axl_hash_cursor_first, axl_hash_cursor_last, axl_hash_cursor_next, axl_hash_cursor_has_next, axl_hash_cursor_has_item, axl_hash_cursor_remove"]}
{"id": "C14", "title": "axlFactory never hands out the same or overlapping memory twice", "statement": "For any history of axl_factory_get / axl_factory_release_spare, the memory returned by axl_factory_get lies inside a block owned by the factory and does not overlap any piece returned before and not given back; once a piece was given back, axl_factory_spare_next is one less than the number of pieces kept.", "quantifier": "every element size, every history", "why_tests_cant": "block growth boundaries depend on element size and number of requests", "anchors": ["src/axl_factory.c: axl_factory_create, axl_factory_get, axl_factory_release_spare, axl_factory_spare_next, axl_factory_spare_max"]}
{"id": "C15", "title": "The string factory hands out disjoint buffers big enough for the string and its terminator", "statement": "For any sequence of sizes, each buffer returned by axl_string_factory_alloc has room for size+1 bytes inside a block owned by the factory and overlaps no other returned buffer.", "quantifier": "every step and every sequence of requested sizes", "why_tests_cant": "the block switch arithmetic depends on the exact remaining size", "anchors": ["src/axl_factory.c: axl_string_factory_create, axl_string_factory_alloc"]}
{"id": "C16", "title": "axl_stream_trim removes exactly the leading and trailing white space", "statement": "After axl_stream_trim the string is the original without its leading and trailing white space (space, tab, newline, carriage return); nothing in between changes, and trimming twice equals trimming once.", "quantifier": "every C string", "why_tests_cant": "depends on arbitrary lengths and positions of white space, including all-blank strings", "anchors": ["src/axl_stream.c: axl_stream_trim, axl_stream_trim_with_size, axl_stream_is_white_space"]}
{"id": "C17", "title": "axl_stream_split and axl_stream_join are inverse", "statement": "For every string and every non-empty separator, joining the pieces given by axl_stream_split with that separator gives the string back, and no piece contains the separator.", "quantifier": "every string and separator", "why_tests_cant": "empty pieces, adjacent separators and separators at the ends are combinatorial", "anchors": ["src/axl_stream.c: axl_stream_split, axl_stream_join"]}
{"id": "C18", "title": "axl_stream_replace and axl_stream_remove rewrite every occurrence", "statement": "axl_stream_replace gives the string where each leftmost non-overlapping occurrence of the pattern is replaced and everything else is untouched; axl_stream_remove deletes the occurrences in place.", "quantifier": "every string, pattern and replacement", "why_tests_cant": "overlaps and adjacency are combinatorial", "anchors": ["src/axl_stream.c: axl_stream_replace, axl_stream_remove"]}
{"id": "C19", "title": "axl_cmp, axl_stream_casecmp and axl_stream_cmp decide equality of strings", "statement": "axl_cmp (a,b) is true iff the two strings are the same sequence of bytes; axl_stream_casecmp iff they are the same up to ASCII case; axl_stream_cmp (a,b,n) iff they agree on the first n bytes.", "quantifier": "every pair of strings, every size", "why_tests_cant": "prefix and length cases are unbounded", "anchors": ["src/axl_stream.c: axl_cmp, axl_stream_casecmp, axl_stream_cmp, axl_stream_equal_chunk", "src/axl_decl.h: axl_memcmp"]}
{"id": "C20", "title": "Content escaping is reversible and leaves no markup character", "statement": "The text stored by axl_node_set_content / axl_node_set_attribute contains no '<', '>', quote or unescaped ampersand, and axl_node_get_content_trans / axl_node_get_attribute_value_trans give back the original text byte for byte.", "quantifier": "every content string", "why_tests_cant": "entity look-alikes such as &amp;lt; and ]]> occur at arbitrary positions", "anchors": ["src/axl_node.c: axl_node_content_copy_and_escape, axl_node_content_translate_defaults, axl_node_has_invalid_chars, axl_node_set_content, axl_node_set_attribute, axl_node_get_content_trans, axl_node_get_attribute_value_trans"]}
{"id": "C21", "title": "The size reserved for an escaped string is exactly the size written", "statement": "The additional size computed by the invalid-character scan equals the growth of the string when it is escaped, so the copy never writes outside the memory reserved and ends with the terminator in the last byte.", "quantifier": "every content string and both the plain and the CDATA modes", "why_tests_cant": "an off-by-one depends on which characters occur and in which order", "anchors": ["src/axl_node.c: axl_node_has_invalid_chars_internal, axl_node_content_copy_and_escape"]}
{"id": "C22", "title": "Node attributes behave as a map, whatever their number", "statement": "After any history of axl_node_set_attribute and axl_node_remove_attribute, axl_node_has_attribute (n, a) holds iff a was set and not removed since, axl_node_get_attribute_value_trans gives the value of the first successful set (a second set of the same name is refused), and axl_node_num_attributes counts the names present; crossing the limit where storage changes from list to hash changes none of this.", "quantifier": "every history of sets and removals", "why_tests_cant": "the storage switches representation at 10 attributes and back", "anchors": ["src/axl_node.c: __axl_node_set_attribute, axl_node_has_attribute, axl_node_remove_attribute, axl_node_get_attribute_value, axl_node_get_attribute_value_trans, axl_node_num_attributes"]}
{"id": "C23", "title": "Attribute enumeration gives each attribute once", "statement": "axl_node_attr_foreach and the attribute cursor visit each attribute of the node exactly once and no other.", "quantifier": "every reachable attribute store", "why_tests_cant": "two storage representations, each with its own walk", "anchors": ["src/axl_node.c: axl_node_attr_foreach, axl_node_attr_cursor_new, axl_node_attr_cursor_next, axl_node_attr_cursor_has_item"]}
{"id": "C24", "title": "Tree links stay consistent under any history of structural edits", "statement": "After any history of axl_node_set_child, axl_item_set_after, axl_node_remove / axl_item_remove / axl_node_deattach, axl_item_replace and axl_node_transfer_childs, walking the children of a node forwards from its first child and backwards from its last child gives the same sequence in both directions, each child's parent is that node, and no freed item is reachable.", "quantifier": "every tree, every history of structural edits", "why_tests_cant": "pointer corruption depends on positions (first, middle, last, only child) and item kinds", "anchors": ["src/axl_node.c: axl_item_set_child, axl_item_set_child_ref, axl_item_set_after, axl_item_remove, axl_item_replace, axl_node_remove, axl_node_deattach, axl_node_transfer_childs, axl_item_transfer_childs_after"]}
{"id": "C25", "title": "Child navigation agrees with the item sequence", "statement": "axl_node_get_first_child, get_last_child, get_next, get_previous, get_child_nth, get_child_num, get_child_called and get_childs are all determined by the sequence of child nodes: iterating get_next from the first child lists exactly the child nodes in order, get_child_nth (n) is the n-th of them, get_child_called is the first with that name, and axl_node_find_called answers a node below with that name if there is one, the children before what is below them.", "quantifier": "every node and position", "why_tests_cant": "content, comment and CDATA items are interleaved arbitrarily with child nodes", "anchors": ["src/axl_node.c: axl_node_get_first_child, axl_node_get_last_child, axl_node_get_next, axl_node_get_previous, axl_node_get_child_nth, axl_node_get_child_num, axl_node_get_child_called, axl_node_get_childs, axl_node_find_called"]}
{"id": "C26", "title": "The dump of a document fills exactly the computed size", "statement": "axl_doc_dump / axl_node_dump produce exactly axl_node_get_flat_size bytes: the size computed before allocating equals the number of bytes written, in plain and pretty-print modes, so dumping never fails nor overruns.", "quantifier": "every document tree, attributes, content, both dump modes, every indentation level", "why_tests_cant": "size and write are two separate recursive computations over arbitrary trees", "anchors": ["src/axl_node.c: axl_node_get_flat_size, axl_node_dump_at, axl_node_dump_attributes_at, axl_node_dump_items_at", "src/axl_doc.c: axl_doc_dump_common, axl_doc_get_flat_size"]}
{"id": "C27", "title": "Parsing the dump of a document gives the document back", "statement": "For every document tree built through the API, axl_doc_parse (axl_doc_dump (doc)) succeeds and gives a document with the same names, attributes, content and order of items.", "quantifier": "every document tree", "why_tests_cant": "arbitrary nesting, arbitrary text, entities, CDATA, comments", "anchors": ["src/axl_doc.c: __axl_doc_parse_common, __axl_doc_parse_node, __axl_doc_parse_close_node, axl_doc_dump_common", "src/axl_node.c: axl_node_dump_at"]}
{"id": "C28", "title": "The parser accepts only properly nested tags and unique attributes", "statement": "When axl_doc_parse succeeds, every opening tag in the document has its closing tag, tags nest properly with equal names, there is exactly one root, and no element carries the same attribute name twice; with a mismatch it fails with an error and no document.", "quantifier": "every input byte string", "why_tests_cant": "the input space is unbounded", "anchors": ["src/axl_doc.c: __axl_doc_parse_node, __axl_doc_parse_close_node, __axl_doc_parse_common"]}
{"id": "C29", "title": "Parsing terminates on every input", "statement": "axl_doc_parse returns, with a document or with an error, for every input; it never loops without consuming input.", "quantifier": "every input byte string", "why_tests_cant": "no finite test set shows termination on all inputs", "anchors": ["src/axl_doc.c: __axl_doc_parse_common, __axl_doc_parse_node, axl_doc_consume_comments, axl_doc_consume_pi", "src/axl_stream.c: axl_stream_get_untilv_wide"]}
{"id": "C30", "title": "Document iteration visits every node once, in the requested order", "statement": "axl_doc_iterate visits every node of the document exactly once, parents before children; in DEEP mode in document order (pre-order), in WIDE mode level by level; it stops when the function returns false.", "quantifier": "every document tree, both modes, every stopping point", "why_tests_cant": "the pending list is manipulated by position, so errors depend on the shape of the tree", "anchors": ["src/axl_doc.c: __axl_doc_iterate_common, axl_doc_iterate, axl_doc_iterate_full"]}
{"id": "C31", "title": "axl_doc_get follows the path", "statement": "axl_doc_get (doc, \"/a/b/c\") returns the first node reached by following child names a, b, c from the root, where each step takes the first child with that name, and NULL iff there is none on that chain; axl_doc_get_content_at returns the first text of that node, an empty string if it has none, and NULL iff there is no node.", "quantifier": "every document and path", "why_tests_cant": "unbounded documents and paths", "anchors": ["src/axl_doc.c: axl_doc_get, axl_doc_get_list, axl_doc_get_content_at", "src/axl_node.c: axl_node_get_content"]}
{"id": "C32", "title": "Equality of nodes is an equivalence relation that matches structure", "statement": "axl_node_are_equal and axl_doc_are_equal are reflexive, symmetric and transitive, and two nodes are equal exactly when they have the same name, the same attributes as a map and pairwise equal items.", "quantifier": "every pair and triple of trees", "why_tests_cant": "attribute order and storage mode differ between equal nodes", "anchors": ["src/axl_node.c: axl_node_are_equal_full, axl_item_are_equal_full, __axl_node_attr_list_are_equal", "src/axl_doc.c: axl_doc_are_equal, axl_doc_are_equal_trimmed, axl_pi_are_equal"]}
{"id": "C33", "title": "axl_node_copy gives an equal, independent tree", "statement": "axl_node_copy (node, copy_attributes, copy_childs) gives a node with the same name, with equal attributes when asked, with equal items in the same order when asked, and with none of them otherwise. The copy is in memory of its own: it writes nothing of the node copied, shares no node nor item with it, and each of the two lives on when the other is freed.", "quantifier": "every node, every combination of flags", "why_tests_cant": "recursion over arbitrary trees and two attribute storages", "anchors": ["src/axl_node.c: axl_node_copy, axl_item_copy, __axl_node_attr_list_copy"]}
{"id": "C34", "title": "Annotations are found in the node or the nearest ancestor", "statement": "axl_node_annotate_get (node, key, lookup_in_parent) returns the datum last attached to the node under the key; with lookup_in_parent, otherwise, the one of the nearest ancestor having it; NULL iff there is none.", "quantifier": "every tree, key and history of annotations", "why_tests_cant": "unbounded depth", "anchors": ["src/axl_node.c: axl_node_annotate_data, axl_node_annotate_get"]}
{"id": "C35", "title": "DTD content validation accepts exactly the children sequences of the content model", "statement": "axl_dtd_validate accepts the children of an element declared with a content model iff the sequence of their names belongs to the regular language the model denotes.", "quantifier": "every content model and every sequence of children", "why_tests_cant": "the language and the sequences are infinite; the matcher is greedy without backtracking", "anchors": ["src/axl_dtd.c: __axl_dtd_validate_sequence, __axl_dtd_validate_choice, __axl_dtd_validate_item_list, __axl_dtd_validate_element_type_children, __axl_dtd_parse_element_get_compulsory_num"]}
{"id": "C36", "title": "DTD validation terminates", "statement": "axl_dtd_validate returns for every document and every DTD.", "quantifier": "every document and DTD", "why_tests_cant": "no finite test set shows termination", "anchors": ["src/axl_dtd.c: axl_dtd_validate, __axl_dtd_validate_item_list"]}
{"id": "C37", "title": "DTD attribute constraints are enforced", "statement": "axl_dtd_validate succeeds only if every node has all its #REQUIRED attributes, every #FIXED attribute with its value, only declared attributes, enumerated attributes with a listed value, no two nodes share an ID value, and every IDREF names an existing ID.", "quantifier": "every document and DTD", "why_tests_cant": "constraints relate arbitrary nodes of arbitrary documents", "anchors": ["src/axl_dtd.c: axl_dtd_attr_validate, __axl_dtd_attr_validate_foreach, __axl_dtd_attr_validate_required, axl_dtd_validate_references"]}
{"id": "C38", "title": "Namespace prefixes resolve to the nearest enclosing declaration", "statement": "After axl_ns_doc_validate succeeds, axl_ns_node_cmp (node, ns, name) is true iff the local name is name and the namespace bound to the node's prefix by the nearest enclosing declaration (or the nearest default namespace when unprefixed) is ns; and axl_ns_doc_validate succeeds iff every prefix used by a node or attribute is declared in the node or an ancestor.", "quantifier": "every document", "why_tests_cant": "shadowing and nesting are unbounded", "anchors": ["ns/axl_ns_doc.c: __axl_ns_node_validate, axl_ns_doc_validate, axl_ns_doc_node_check, axl_ns_doc_check_default", "ns/axl_ns_node.c: axl_ns_node_cmp, axl_ns_node_is_prefixed"]}
{"id": "C39", "title": "UTF-8 checking accepts exactly well-formed sequences", "statement": "axl_babel_check_utf8_content accepts every UTF-8 encoded text and rejects any byte string that is not a sequence of properly led and continued UTF-8 characters, reporting the index of the first bad character.", "quantifier": "every byte string", "why_tests_cant": "the space of byte strings is unbounded; truncation can occur at any byte", "anchors": ["babel/axl_babel.c: axl_babel_check_utf8_content"]}
{"id": "C40", "title": "ISO-8859 decoding yields the UTF-8 encoding of every character, whatever the buffering", "statement": "Decoding a single-byte encoded document gives the concatenation of the UTF-8 encodings of its characters; the result does not depend on how the output buffer splits the work, and never overruns the output buffer.", "quantifier": "every source text, every output buffer size, each of the supported ISO-8859 parts", "why_tests_cant": "splits can fall inside any multi-byte output character", "anchors": ["babel/axl_babel.c: axl_babel_single_to_utf8", "babel/axl_babel_iso88591.c: axl_babel_build_iso88591_table", "babel/axl_babel_iso885915.c: axl_babel_build_iso885915_table"]}
{"id": "C41", "title": "xml:space=\"preserve\" applies to the element that declares it and its descendants", "statement": "While parsing, white-space-only text is kept exactly when the nearest enclosing element carrying xml:space declares preserve, and dropped otherwise.", "quantifier": "every input document", "why_tests_cant": "scoping depends on arbitrary nesting", "anchors": ["src/axl_doc.c: __axl_doc_parse_node, __axl_doc_parse_close_node, __axl_doc_parse_common"]}
{"id": "C42", "title": "Processing instructions can be looked up by target", "statement": "axl_doc_get_pi_target_content returns the content of the first processing instruction with that target and axl_doc_has_pi_target holds iff there is one, for documents and for nodes.", "quantifier": "every list of processing instructions", "why_tests_cant": "arbitrary number and order of instructions", "anchors": ["src/axl_doc.c: axl_doc_add_pi_target, axl_doc_has_pi_target, axl_doc_get_pi_target_content"]}
{"id": "C43", "title": "Parsing any bytes stays within memory", "statement": "axl_doc_parse never reads or writes outside of the memory it owns and never uses a NULL pointer, whatever bytes it is given: it gives a document or an error.", "quantifier": "every input byte string", "why_tests_cant": "the input space is unbounded; a crash needs one specific malformed input", "anchors": ["src/axl_doc.c: __axl_doc_parse_common, __axl_doc_parse_xml_header, __axl_doc_parse_node", "src/axl_stream.c: axl_stream_get_until_ref"]}
{"id": "C44", "title": "A document in a file is read as the same document in memory", "statement": "Every reading operation of a stream opened over a file (asking for more, skipping white space, looking for a chunk, reading up to a chunk) answers as over a memory block with the same content, whatever the size of the buffer and however many bytes each read gives.", "quantifier": "every file content, every buffer size, every sequence of read sizes, every position", "why_tests_cant": "a refill can fall inside any token; read sizes are not under the control of a test", "anchors": ["src/axl_stream.c: axl_stream_prebuffer, axl_stream_inspect, axl_stream_get_until_ref, axl_stream_consume_white_spaces, axl_stream_remains, axl_stream_setup_check"]}
{"id": "C45", "title": "Every document written as XML asks is accepted and gives the tree it stands for", "statement": "axl_doc_parse accepts every well formed document (declaration, comments, document type, instructions, then a root element) and the document it gives has the encoding and standalone of the declaration, the instructions before the root, and the elements, attributes, values, texts, comments, CDATA sections and instructions of the text, in the same order.", "quantifier": "every well formed document without xml:space=\"preserve\"", "why_tests_cant": "documents nest without bound and mix all the constructs", "anchors": ["src/axl_doc.c: axl_doc_parse, __axl_doc_parse_xml_header, __axl_doc_parse_node, __axl_doc_parse_close_node, __axl_doc_parse_common"]}
{"id": "C46", "title": "Every DTD written as XML asks is accepted and gives the declarations written", "statement": "axl_dtd_parse accepts every DTD made of element, attribute list and internal entity declarations, comments and white space that meets the validity constraints of XML and refuses those that break them, and the DTD it gives has the elements with their content models, the attributes of each element and the entities that were written, in the same order.", "quantifier": "every DTD of that form: any number of declarations, content models nested to any depth", "why_tests_cant": "declarations mix and content models nest without bound", "anchors": ["src/axl_dtd.c: axl_dtd_parse, __axl_dtd_parse_common, __axl_dtd_parse_element, __axl_dtd_read_element_spec, __axl_dtd_parse_attlist, __axl_dtd_parse_entity"]}
{"id": "C47", "title": "Parsing a DTD is safe and ends", "statement": "For any text axl_dtd_parse reads nothing outside of it, uses no NULL reference and returns.", "quantifier": "every text", "why_tests_cant": "any sequence of bytes may be given; recursion through entities and content models", "anchors": ["src/axl_dtd.c: axl_dtd_parse, axl_dtd_check_entity_ref_and_expand, __axl_dtd_get_new_root, __axl_dtd_get_is_parent"]}
{"id": "C48", "title": "An accepted DTD meets the validity constraints of XML", "statement": "A DTD returned by axl_dtd_parse declares each element once; its root is a declared element that is in the content of no other; each element has one ID attribute at most, which is not fixed; the default value of an enumeration is one of its values; references are declared only if identifiers are.", "quantifier": "every text that is accepted", "why_tests_cant": "constraints relate declarations anywhere in the text", "anchors": ["src/axl_dtd.c: axl_dtd_parse, __axl_dtd_add_element, __axl_dtd_parse_attlist, __axl_dtd_get_new_root"]}
{"id": "C49", "title": "Lookups in a DTD give the declaration asked for", "statement": "axl_dtd_get_element and axl_dtd_get_attr give the one declaration with the name; axl_dtd_entity_value the first one of an entity with the name and type; axl_dtd_get_attr_contraints the number of attributes declared; axl_dtd_element_is_toplevel says whether the element is in the content of none; a program that reads an element with axl_dtd_get_item_list, axl_dtd_item_list_get_node and the functions next to them sees the whole content model that was declared.", "quantifier": "every DTD accepted, every name", "why_tests_cant": "any number of declarations and repeated ones", "anchors": ["src/axl_dtd.c: axl_dtd_get_element, axl_dtd_get_attr, axl_dtd_get_attr_contraints, axl_dtd_entity_value, axl_dtd_entity_exists, axl_dtd_element_is_toplevel, axl_dtd_get_item_list, axl_dtd_item_list_count, axl_dtd_item_list_get_node, axl_dtd_item_node_get_list, axl_dtd_item_node_get_value"]}
{"id": "C50", "title": "Comparison of DTDs answers true for the same declarations and only for them", "statement": "axl_dtd_are_equal answers true exactly when both DTDs have the same elements, attributes and entities in the same order, and reads no NULL reference.", "quantifier": "every pair of DTDs", "why_tests_cant": "DTDs have any number of declarations with content models of any shape", "anchors": ["src/axl_dtd.c: axl_dtd_are_equal"]}
{"id": "C51", "title": "The contents of a node are those stored, as stored", "statement": "After any calls that store texts, CDATA sections, comments and other items in a node, axl_node_get_content, axl_node_get_content_copy, axl_node_get_content_trim, axl_node_get_content_trans, axl_node_is_empty and axl_item_get_content answer from the sequence stored: the first text or section escaped or as given, the first one trimmed, the concatenation of all with the entities undone, and the size each reports is the length of the text.", "quantifier": "every history of calls on a node, every text", "why_tests_cant": "trimming changes the text for the calls that follow, and sequences of calls are not bounded", "anchors": ["src/axl_node.c: axl_node_set_content, axl_node_set_cdata_content, axl_node_set_comment, axl_node_get_content, axl_node_get_content_copy, axl_node_get_content_trim, axl_node_get_content_trans, axl_node_is_empty, axl_item_get_content"]}
{"id": "C52", "title": "Reading and writing a document settles after one round", "statement": "A well formed document that is parsed can be dumped, the text parses to the same document, and dumping that gives the same text again, with axl_doc_dump and with axl_doc_dump_pretty.", "quantifier": "every well formed document, any layout of the source, any indentation", "why_tests_cant": "documents nest without bound; the order of attributes depends on the hash table they are in", "anchors": ["src/axl_doc.c: axl_doc_parse, axl_doc_dump, axl_doc_dump_pretty", "src/axl_node.c: axl_node_dump_at, axl_node_dump_attributes_at"]}
{"id": "C53", "title": "Parsing leaves nothing behind and tells one error", "statement": "axl_doc_parse, whatever the text, uses no memory released before and releases no block twice; when it returns a document only the document and what it owns stays in memory and no error is stored; when it returns NULL exactly one error is stored, if it was asked for, with a negative code, a message and the place in the text where it was found, and nothing that was allocated stays in memory.", "quantifier": "every text, given with its size or up to a NUL, with or without asking for the error", "why_tests_cant": "each of the ways a text can be wrong ends at another place of the code, with other blocks allocated", "anchors": ["src/axl_doc.c: axl_doc_parse, __axl_doc_parse_common, __axl_doc_parse_xml_header, __axl_doc_parse_node, __axl_doc_parse_close_node, axl_doc_consume_comments, axl_doc_consume_pi", "src/axl_stream.c: axl_stream_new, axl_stream_inspect, axl_stream_get_until, axl_stream_get_until_ref, axl_stream_nullify, axl_stream_accept, axl_stream_move, axl_stream_get_near_to, axl_stream_get_following, axl_stream_link, axl_stream_unlink, axl_stream_free", "src/axl_error.c: axl_error_new"]}
{"id": "C54", "title": "With babel a document in memory is read in the encoding it declares", "statement": "After axl_babel_init, axl_doc_parse of a document in memory that declares utf-8, by any spelling of the name, gives what it gives without babel if what follows the declaration has the form of UTF-8, and NULL with an error if not; one that declares a part of ISO 8859 gives what the same document converted to UTF-8 gives; one that declares nothing is read as without babel, and one that begins in a way that is no encoding known is refused with an error. The document says then that its encoding is utf-8.", "quantifier": "every document in memory, with and without a byte order mark, every declaration, every comment after it, every spelling of the encoding", "why_tests_cant": "any byte of the rest of the document can be wrong in UTF-8, and a conversion that grows has to fit for every number of characters", "anchors": ["babel/axl_babel.c: axl_babel_init, axl_babel_detect_codification, axl_babel_configure_encoding, axl_babel_utf8_check", "src/axl_doc.c: axl_doc_parse, axl_doc_configure_encoding, __axl_doc_parse_xml_header, axl_doc_set_detect_codification_func, axl_doc_set_configure_codification_func", "src/axl_stream.c: axl_stream_setup_check, axl_stream_setup_decode, axl_stream_inspect_code"]}
{"id": "C55", "title": "A document parsed from a file is the document of the content of the file", "statement": "axl_doc_parse_from_file gives the document that axl_doc_parse gives for the content of the file, and an error where that gives one, whatever the size of the file and wherever the buffer it is read with ends; a file that cannot be opened is an error.", "quantifier": "every content of a file, of any size, with any place of the document at the end of the buffer", "why_tests_cant": "the buffer can end inside of any tag, text, comment or reference, and the file can be of any size", "anchors": ["src/axl_doc.c: axl_doc_parse_from_file, __axl_doc_parse_common, __axl_doc_parse_xml_header, __axl_doc_parse_node, __axl_doc_parse_close_node, axl_doc_consume_comments", "src/axl_stream.c: axl_stream_new, axl_stream_prebuffer, axl_stream_inspect, axl_stream_peek, axl_stream_get_until, axl_stream_get_until_ref, axl_stream_consume_white_spaces, axl_stream_remains, axl_stream_get_index, axl_stream_set_index"]}
{"id": "C56", "title": "A document written to a file is in the file and can be read again", "statement": "axl_doc_dump_to_file, axl_doc_dump_pretty_to_file, axl_node_dump_to_file and axl_node_dump_pretty_to_file give axl_true only if the file has exactly the text of the dump, replacing what it had; they give axl_false, and leave what was in the file if it could not be opened, when the file cannot be opened or written. The file is read by axl_doc_parse_from_file as the same document.", "quantifier": "every document and node, every behaviour of the system when the file is opened, written and closed, every size of the text", "why_tests_cant": "the disk can be full at any byte and when the file is closed; the documents have any size", "anchors": ["src/axl_doc.c: axl_doc_dump_to_file, axl_doc_dump_pretty_to_file, axl_doc_parse_from_file", "src/axl_node.c: axl_node_dump_to_file, axl_node_dump_pretty_to_file"]}
{"id": "C57", "title": "Whatever edits documents and nodes went through, freeing them gives back every block once", "statement": "For every history of calls that create, parse, edit, move, copy, annotate, detach, remove and free documents and nodes (each one used as documented), no call reads memory that was given back or gives back memory twice or memory of a document, and once every document and every node was freed nothing is left allocated.", "quantifier": "every history of calls, of any length, over any number of documents and nodes, with nodes moved between documents and any number of attributes", "why_tests_cant": "who owns a string or a node depends on flags set by calls made long before; the histories are unbounded", "anchors": ["src/axl_node.c: axl_node_create, axl_node_free, axl_node_free_full, axl_node_set_name, axl_node_set_name_from_factory, axl_node_set_name_ref, axl_node_set_attribute, axl_node_set_attribute_ref, axl_node_remove_attribute, axl_node_annotate_data_full, axl_node_set_content, axl_node_add_pi_target, axl_node_set_child, axl_node_set_child_after, axl_node_remove, axl_node_deattach, axl_node_replace, axl_node_transfer_childs, axl_node_transfer_childs_after, axl_node_set_is_empty, axl_node_copy, axl_item_remove, axl_item_free", "src/axl_doc.c: axl_doc_create, axl_doc_parse, axl_doc_set_root, axl_doc_add_pi_target, axl_doc_free", "src/axl_hash.c: axl_hash_insert_full, axl_hash_remove, axl_hash_free"]}
{"id": "C58", "title": "Printing with a format gives exactly the text of the format", "statement": "axl_strdup_printf, axl_stream_strdup_printf_len and axl_stream_printf_buffer give exactly the text that the format and its arguments make (cut to the room of the buffer, always with its end, never behind it) and its length, and NULL or -1 when the C library fails; axl_stream_printf_len is the room that the text needs. axl_stream_strdup_n copies exactly n bytes; axl_stream_strv_num counts the strings of an array and axl_stream_freev frees the array and each of them once.", "quantifier": "every format and argument, every behaviour of the C library for them, every size of text and buffer, every array", "why_tests_cant": "texts and buffers of any size, with the boundary at any place, and failures of the C library", "anchors": ["src/axl_stream.c: axl_stream_vprintf_len, axl_stream_printf_buffer, axl_stream_printf_len, axl_stream_strdup_printf, axl_stream_strdup_printfv, axl_stream_strdup_printf_len, axl_stream_strdup_n, axl_stream_strv_num, axl_stream_freev"]}
{"id": "C59", "title": "A text given in pieces or by a format is parsed as the text", "statement": "axl_doc_parse_strings and axl_node_parse_strings give the document (or its root) that axl_doc_parse gives for the strings joined, and the same error where it gives one, wherever the text is cut; axl_node_parse does so for the text that its format makes. The strings they make are freed. The error is optional.", "quantifier": "every list of strings and every way to cut a text, every format", "why_tests_cant": "a text can be cut at any place, inside of any tag or reference", "anchors": ["src/axl_doc.c: axl_doc_parse_strings, axl_doc_parse", "src/axl_node.c: axl_node_parse_strings, axl_node_parse", "src/axl_stream.c: axl_stream_concat, axl_stream_strdup"]}
{"id": "C60", "title": "From Python a document that is read stays as long as it is needed, and no longer", "statement": "A Python program that parses documents (axl.parse, axl.file_parse, axl.Doc ()) and reads them (doc.root, doc.get, the attributes and methods of axl.Node that go to another node, node.name) never reaches freed memory, whatever it copies and drops and in what order: a document stays while the program holds its axl.Doc or any axl.Node that was got from it, it is freed when the last of them goes, and a program that holds nothing leaves nothing. What it is told about a node does not change.", "quantifier": "every sequence of such calls that Python lets a program make, with any number of documents, nodes and variables", "why_tests_cant": "the order in which references go away is that of the program and of the Python collector; the set of orders has no bound", "anchors": ["py-axl/py_axl.c: py_axl_doc_parse, py_axl_doc_parse_from_file", "py-axl/py_axl_doc.c: py_axl_doc_new, py_axl_doc_dealloc, py_axl_doc_get_attr, py_axl_doc_get_node, py_axl_doc_create", "py-axl/py_axl_node.c: py_axl_node_dealloc, py_axl_node_get_attr, py_axl_node_create, py_axl_node_next_called, py_axl_node_previous_called, py_axl_node_child_called, py_axl_node_find_called, py_axl_node_nth_child"]}
{"id": "C61", "title": "No Python program reaches freed memory, nor leaks", "statement": "Whatever a Python program does with documents, nodes and attribute cursors (make, place, remove, read, node.doc, copy and drop references in any order), no call reaches memory that was freed, nothing is freed twice, and when it holds nothing any more everything was freed.", "quantifier": "every sequence of calls that Python lets a program make", "why_tests_cant": "the order in which references go away is that of the program and of the Python collector; the set of orders has no bound", "anchors": ["py-axl/py_axl_doc.c: py_axl_doc_set_attr, py_axl_doc_create, py_axl_doc_dealloc", "py-axl/py_axl_node.c: py_axl_node_new, py_axl_node_dealloc, py_axl_node_get_attr, py_axl_node_set_child, py_axl_node_set_child_after, py_axl_node_remove, py_axl_node_attr_cursor_new", "py-axl/py_axl_attr_cursor.c: py_axl_attr_cursor_new, py_axl_attr_cursor_dealloc, py_axl_attr_cursor_get_attr"]}
{"id": "C62", "title": "Parsing a DTD uses memory safely and releases it", "statement": "axl_dtd_parse never uses or releases memory that it already released. If the text is a DTD, it returns it and nothing else that it allocated is left, and axl_dtd_free then releases every block once. If the text is not a DTD, it returns NULL, stores exactly one error if the caller asked for it, and everything that it allocated was released.", "quantifier": "every text, with or without a place for the error", "why_tests_cant": "which blocks exist when an error is found depends on the declarations before it and on the place of the error; texts have no bound", "anchors": ["src/axl_dtd.c: axl_dtd_parse, __axl_dtd_parse_common, __axl_dtd_parse_element, __axl_dtd_read_element_spec, __axl_dtd_add_element, __axl_dtd_parse_attlist, __axl_dtd_parse_entity, axl_dtd_free", "src/axl_stream.c: axl_stream_get_until, axl_stream_nullify, axl_stream_link, axl_stream_free"]}
{"id": "C63", "title": "What is pushed to a stream is read next", "statement": "After axl_stream_push (stream, content, size) the functions that read the stream find those size bytes and then what was left, whatever was pushed, looked for (axl_stream_peek, axl_stream_inspect), accepted, moved or skipped before, and no byte is read or written out of the buffers of the stream.", "quantifier": "every text, and every sequence of pushes, looks, accepts, moves and steps within the text", "why_tests_cant": "the sizes of the two buffers, of what is left and of what is pushed can be in any relation, and they change with every push", "anchors": ["src/axl_stream.c: axl_stream_push, axl_stream_peek, axl_stream_inspect, axl_stream_accept, axl_stream_move, axl_stream_step, axl_stream_new"]}
{"id": "C64", "title": "The page written for a document shows the document", "statement": "axl-knife --htmlize writes, for any document, a page whose only tags are its own pre and spans, properly closed, whatever the document contains; and the text that the page shows, once tags are dropped and character references replaced, is the text of the document but for white space and the order of attributes.", "quantifier": "every document tree: any names, attributes (any number), texts, CDATA sections, comments, nesting, with each combination of the options", "why_tests_cant": "A test looks at the page of a few documents; that no content is taken for a tag must hold for every content.", "anchors": ["knife/axl-knife.c: axl_knife_htmlize, axl_knife_htmlize_iterator_node, __translate_content, axl_knife_introduce_indentation"]}
{"id": "C65", "title": "A text can be read to its end by pieces", "statement": "Calling axl_stream_get_until_zero with a separator, accepting it, until chunk_matched is -2 gives exactly the parts of the text between separators, in order, whether the text is in memory or comes from a file, whatever its reads return, and leaves the stream at the end of the text.", "quantifier": "every text, every separator of one character, every sequence of sizes of the reads of the file and size of the buffer", "why_tests_cant": "Where the reads and the buffer cut the text is not under the control of a test, and the places have no bound.", "anchors": ["src/axl_stream.c: axl_stream_get_until_zero, axl_stream_get_untilv, __axl_stream_get_untilv_wide, axl_stream_prebuffer", "knife/axl-knife.c: axl_knife_dtd_to_c"]}
{"id": "C66", "title": "The header made from a DTD is C and has the DTD", "statement": "For a file that is a DTD, axl-knife --dtd-to-c writes a header that a C compiler reads as a guard and one macro, named as the file in capital letters, whose value is a string with the words of the DTD in order, with single quotes instead of double ones; for a file that is not a DTD it writes nothing.", "quantifier": "every path and content of the file, every sequence of sizes of its reads and size of the buffer", "why_tests_cant": "Contents and names have no bound, and a character that C reads in a special way can be anywhere.", "anchors": ["knife/axl-knife.c: axl_knife_dtd_to_c, axl_knife_file_name, axl_knife_clean_name", "src/axl_stream.c: axl_stream_get_until_zero, axl_stream_to_upper"]}
{"id": "C67", "title": "The options of a command line are read in one way", "statement": "After exarg_parse, the words of the command line are options, values of options and free arguments, in one way: all options have the form of the first (dashes or bar), an option that takes a value takes the next word, no option is given twice, what is required is there and free arguments are there only if the program accepts them. exarg_is_defined tells which options are given, by the long or the short name, exarg_get_string and exarg_get_int give their values, and the free arguments are kept in order. An option comes with the options it depends on and without those it excludes. Every command line that can be read so is accepted, and no command line has undefined behaviour.", "quantifier": "every sequence of calls that install options, dependencies, exclusions and settings; every list of words", "why_tests_cant": "Command lines and tables of options have no bound, and a word can be an option, a value or a free argument depending on all the others.", "anchors": ["knife/exarg.c: exarg_install_arg, exarg_add_dependency, exarg_add_exclusion, exarg_parse, __exarg_parse_check_depends, __exarg_check_argument, exarg_is_defined, exarg_get_string, exarg_get_int, exarg_get_params"]}
{"id": "C68", "title": "axl-knife does what its command line asks", "statement": "axl-knife writes the page of a file exactly when --htmlize is given and the input is a document, the header exactly when --dtd-to-c is given and the input is a DTD, and says that the file is OK exactly when --check-xml is given alone and the input is a document; if the input is not what is needed it says so. With --ifnewer and an output that is not older than the input, or with --version, no file is read. It has no undefined behaviour, and its status tells success from failure.", "quantifier": "every command line, every set of files with their times and contents", "why_tests_cant": "There are no bounds on the words of a command line and all combinations of options have to be considered.", "anchors": ["knife/axl-knife.c: main, axl_knife_check_if_newer, axl_knife_file_test"]}
{"id": "C69", "title": "A hash table uses only the memory of its own nodes", "statement": "For any history of insertions and removals on a hash table, every pointer that the library follows to find, insert, replace, unlink, visit or destroy a pair leads to the place of a pair that is stored, whatever was in the memory handed out for it; no search goes on for ever; the pairs are in places that do not overlap and are inside of the memory of the table, although the places of removed pairs are used again; and what lookups, removals, visits, destruction and cursors (also a cursor that removes) give is what the history says.", "quantifier": "every sequence of insertions and removals, with any keys, values, step, consistent hash and comparison functions and initial content of memory; every moment of the history for lookups, visits, destruction and cursors", "why_tests_cant": "A wrong link is only seen when a later operation follows it, after collisions, a resize and a reuse of memory in the right order.", "anchors": ["src/axl_hash.c: axl_hash_new_full, axl_hash_insert_full, __axl_hash_internal_lookup, __axl_hash_insert_node, __axl_hash_remove_common, axl_hash_remove, axl_hash_delete, axl_hash_remove_deferred, axl_hash_get, axl_hash_exists, __axl_hash_foreach, axl_hash_free, axl_hash_cursor_new, axl_hash_cursor_first, axl_hash_cursor_next, axl_hash_cursor_has_next, axl_hash_cursor_remove", "src/axl_factory.c: axl_factory_get, axl_factory_release_spare"]}
{"id": "C70", "title": "Running out of memory does not break a container", "statement": "When the system refuses memory while an element is added to a list, a stack, a binary stack or a hash table, the call does nothing: the container keeps what it had, all its functions answer as before, later calls work as if the refused one had not been made, and what was stored is destroyed once. Nothing undefined happens, in creation, copy and removal as well.", "quantifier": "every sequence of calls and every set of refused allocations in it (the refusals are part of the input: any call can be refused any of its allocations)", "why_tests_cant": "A test can make one allocation fail; which one of the calls fails, in which state, and what is done afterwards are histories without bound.", "anchors": ["src/axl_list.c: axl_list_new, __axl_list_allocate_nodes, __axl_list_get_next_node_available, axl_list_add, axl_list_prepend, axl_list_append, axl_list_add_at, axl_list_copy, axl_list_free", "src/axl_stack.c: axl_stack_new, axl_stack_push, axl_binary_stack_push", "src/axl_hash.c: axl_hash_new_full, axl_hash_insert_full, axl_hash_remove, axl_hash_get, axl_hash_exists", "src/axl_factory.c: axl_factory_create, axl_factory_get, axl_factory_release_spare"]}
{"id": "C71", "title": "With babel a document in a file is read as its content in memory", "statement": "After axl_babel_init, axl_doc_parse_from_file gives, for every file, what axl_doc_parse gives for the content of the file: the same document, the same error, or NULL. A file that cannot be opened is an error.", "quantifier": "every content of a file, of every size, with and without a byte order mark, every declaration and every spelling of the encoding", "why_tests_cant": "Where the buffer ends inside the document depends on all that was read before: a character of several bytes, a tag or a comment can be cut at any place in files of any size.", "anchors": ["babel/axl_babel.c: axl_babel_init, axl_babel_detect_codification, axl_babel_configure_encoding, axl_babel_utf8_check, axl_babel_single_to_utf8", "src/axl_doc.c: axl_doc_parse_from_file, axl_doc_configure_encoding, __axl_doc_parse_common, __axl_doc_parse_xml_header", "src/axl_stream.c: axl_stream_new, axl_stream_prebuffer, axl_stream_content_check, axl_stream_decode, axl_stream_setup_check, axl_stream_setup_decode, axl_stream_inspect_code"]}
{"id": "C72", "title": "A DTD parsed from a file is the DTD parsed from its content", "statement": "axl_dtd_parse_from_file gives, for every file, what axl_dtd_parse gives for the content of the file: the same declarations, or an error when that is one. A file that cannot be opened is an error.", "quantifier": "every content of a file, of every size", "why_tests_cant": "Where the buffer ends inside a declaration depends on all that was read before, and parameter entities are put back into the buffer: a declaration can be cut at any place in files of any size.", "anchors": ["src/axl_dtd.c: axl_dtd_parse_from_file, __axl_dtd_parse_common, __axl_dtd_parse_element, __axl_dtd_read_element_spec, __axl_dtd_parse_attlist, axl_dtd_check_entity_ref_and_expand, __axl_dtd_parse_entity", "src/axl_stream.c: axl_stream_new, axl_stream_prebuffer, axl_stream_push, axl_stream_move, axl_stream_get_until, axl_stream_inspect"]}
{"id": "C73", "title": "Documents that are the same are valid for the same DTDs", "statement": "If axl_doc_are_equal_full says that two documents are equal, axl_dtd_validate answers the same for both, whatever the DTD. So it does for a node and its copy, and for a document and the one that is read from what was written of it.", "quantifier": "every pair of documents and every DTD", "why_tests_cant": "The validation walks the trees and the hashes of attributes in their own order, and the documents and DTDs are infinite.", "anchors": ["src/axl_dtd.c: axl_dtd_validate, __axl_dtd_attr_validate_foreach, axl_dtd_attr_validate", "src/axl_doc.c: axl_doc_are_equal_full, axl_doc_dump, axl_doc_dump_pretty, axl_doc_parse", "src/axl_node.c: axl_node_copy"]}
{"id": "C74", "title": "From the texts: a document is found valid for a DTD exactly when XML says that it is", "statement": "For the text of a DTD and the text of a document, written as XML asks: axl_dtd_parse and axl_doc_parse read them, and axl_dtd_validate answers true exactly when the document is valid as XML 1.0 says (elements declared, children in the content declared, attributes declared, required and fixed ones, enumerated values, identifiers not repeated, references with an identifier).", "quantifier": "every text of a DTD and every text of a document", "why_tests_cant": "It is about three parts of the library together, for infinite sets of texts of both kinds.", "anchors": ["src/axl_dtd.c: axl_dtd_parse, axl_dtd_parse_from_file, axl_dtd_validate", "src/axl_doc.c: axl_doc_parse, axl_doc_parse_from_file"]}
{"id": "C75", "title": "A reference to a parameter entity in a list of attributes stands for the value of the entity", "statement": "A DTD in which the definitions of attributes have references to parameter entities (%name;) declared before gives what the text with every reference replaced by the value of the entity gives: axl_dtd_parse answers the same and the DTD has the same declarations, also for references in the values. A reference to an entity that was not declared is refused.", "quantifier": "every DTD with references in its lists of attributes, whatever the entities, how many and how deep", "why_tests_cant": "The references, the entities and the nesting are unbounded, and the text that is read grows while it is read.", "anchors": ["src/axl_dtd.c: axl_dtd_parse, axl_dtd_check_entity_ref_and_expand, __axl_dtd_parse_attlist, axl_dtd_entity_value", "src/axl_stream.c: axl_stream_push"]}
{"id": "C76", "title": "Threads that use different documents do not interfere", "statement": "When several threads make calls on nodes, each thread only on the nodes that it created, then whatever the order in which the calls of the threads are made no call reads or writes memory that is not allocated, and every node of a thread has the name, the children, their order and their parents that it has when the thread runs alone with the same calls; what a thread has does not depend on the order.", "quantifier": "every number of threads, every sequence of calls of each of them, every interleaving of the calls", "why_tests_cant": "The interleavings grow exponentially with the calls, and a test sees one of them for one program.", "anchors": ["src/axl_node.c: axl_node_create, axl_node_set_child, axl_node_remove, axl_node_replace, axl_node_transfer_childs, axl_node_copy, axl_node_free, axl_item_remove, axl_item_replace", "src/axl_doc.c: static variables", "src/axl_log.c: static variables"]}
{"id": "C77", "title": "A call uses only the memory of the trees that it is given", "statement": "A call on nodes (creation, placing, removal, replacement, transfer of children, copy, free, and the functions that look at children, siblings and parents) reads and writes only memory of the trees that the nodes given are in, and memory that it allocates: it could be made in the same way if the memory of all other nodes were not there, and with it there every byte of it stays as it was.", "quantifier": "every history of calls, every set of whole trees, every call on nodes of these trees", "why_tests_cant": "What a test sees unchanged are the nodes it looks at; that no other memory is read cannot be seen at all.", "anchors": ["src/axl_node.c: axl_node_set_child, axl_item_set_after, axl_node_remove, axl_node_replace, axl_item_remove, axl_item_replace, axl_node_transfer_childs, axl_item_transfer_childs_after, axl_node_copy, axl_node_free, axl_node_get_next, axl_node_find_called"]}
{"id": "C78", "title": "The help of a program shows every option and every word about it", "statement": "For all options that a program installs, --usage shows each of them, in order, with its names and the value it takes, and --help shows besides the whole description of each and the options that it depends on and excludes; a text that does not fit is cut at spaces into lines that, put together again, are the text; the program is named by the last part of its path.", "quantifier": "every list of installed options with dependencies and exclusions, all descriptions of any length, every width", "why_tests_cant": "A test looks at the help of one program; which words fall on a border depends on every length.", "anchors": ["knife/exarg.c: exarg_show_usage, exarg_show_help, exarg_wrap_and_print, exarg_split, exarg_basename, exarg_disable_help"]}
{"id": "C79", "title": "What is built with calls is what is written, read back and compared", "statement": "After every history of calls that create, place, move, exchange, copy, remove and free nodes and items, a node that is left stands for one tree (its name, its attributes and its children in order, with what is below them), and that tree is what the dump of the node, the dump of a document with that root, the size announced and the comparison of two nodes see through the pointers; so the text written is the text of the tree, and reading it gives the tree back.", "quantifier": "every history of calls of any length, all names, texts, attributes and layouts, every depth", "why_tests_cant": "A test dumps trees that were just built in one way; stale pointers after some order of moves and removals appear only in other histories.", "anchors": ["src/axl_node.c: axl_node_set_child, axl_node_remove, axl_node_replace, axl_node_transfer_childs, axl_node_copy, axl_node_dump_at, axl_node_get_flat_size, axl_node_are_equal, axl_item_are_equal", "src/axl_doc.c: axl_doc_dump, axl_doc_dump_pretty, axl_doc_are_equal"]}
{"id": "C80", "title": "A document that was read can be edited with calls and written", "statement": "For every text that is accepted, the nodes in memory stand for the tree read; after every history of calls on them and on new nodes, what is written is the tree that the calls leave, and reading it gives that tree back.", "quantifier": "every document accepted, every history of calls of any length on its nodes and on new ones, every layout", "why_tests_cant": "A test makes a few edits of a few documents; that the nodes of a parser and those of the calls are the same kind of structure, in every order of edits, is not seen from them.", "anchors": ["src/axl_doc.c: axl_doc_parse, __axl_doc_parse_node, axl_doc_set_child_current_parent, axl_doc_dump", "src/axl_node.c: axl_node_set_child, axl_node_remove, axl_node_replace, axl_node_transfer_childs, axl_node_dump_at"]}
{"id": "C81", "title": "The strings that a program puts in a document come back", "statement": "A program that makes nodes, copies, moves and frees them, sets contents and CDATA sections and sets and removes attributes, in any order, never has undefined behaviour; the attributes of each node are those given to it, or to the node it was copied from before the copy; and when the document is written and read again, names, values of attributes and texts, read with the functions that translate entities, are the strings given.", "quantifier": "every history of calls on nodes, contents and attributes, every string, every layout", "why_tests_cant": "A test writes a few strings in a few documents; which characters, in a value or in a text, break the way back, and whether a call on one node touches another, cannot be seen from them.", "anchors": ["src/axl_node.c: axl_node_copy, axl_node_set_content, axl_node_set_cdata_content, axl_node_set_attribute, axl_node_remove_attribute, axl_node_get_attribute_value_trans, axl_node_get_content_trans", "src/axl_doc.c: axl_doc_dump, axl_doc_dump_pretty, axl_doc_parse"]}
{"id": "C82", "title": "Errors are reported, asked for and freed", "statement": "A variable for errors answers with the code and the text of the last error that was reported in it or in the variable it was copied from, and with no error if there was none; a variable that is not given is left alone; freeing an error gives back all its memory and touches no other error, and freeing it twice is the only undefined behaviour; the memory in use is that of the errors that were reported and not freed.", "quantifier": "every number of variables, every history of reports with and without a format, frees, and assignments of NULL and of other variables, every text, every format of every C library, memory for an error there or not at each call", "why_tests_cant": "A test reports one error and frees it; what a variable shows after several failures, and which memory is left, depends on the whole history.", "anchors": ["src/axl_error.c: axl_error_new, axl_error_report, axl_error_was_ok, axl_error_get, axl_error_get_code, axl_error_free", "src/axl_stream.c: axl_stream_get_near_to, axl_stream_get_following"]}
{"id": "C83", "title": "What is linked to a stream is destroyed with it", "statement": "After any calls that link elements to a stream and unlink it, freeing the stream calls the function given with an element on that element, once for each call that linked it and in the order of the calls, if it was linked to be kept or if the stream was not unlinked later; and it destroys nothing else: neither what was unlinked nor what was linked with no element or no function.", "quantifier": "every history of calls of link, link with a flag and unlink on a stream, of any length, with any elements and functions, NULL or not", "why_tests_cant": "A parse that fails has to free the document and one that ends must not; a test sees a few points of failure, and a double free or a leak depends on the order of all the calls.", "anchors": ["src/axl_stream.c: axl_stream_link, axl_stream_link_full, axl_stream_unlink, axl_stream_free, __stream_associated_data_free"]}
{"id": "C84", "title": "The root of a DTD contains the rest", "statement": "The element given by axl_dtd_get_root, for a DTD that was read, is a declared element that no declared element has in its content, and the first element declared may be inside it at some depth; if only one element is in the content of none, it is that one, in whatever order the elements are declared; a DTD without elements has no root.", "quantifier": "every text of a DTD that axl_dtd_parse accepts, with any number of elements and content models of any depth", "why_tests_cant": "The search for the root goes up from element to element; the number of ways up grows with the declarations and their order, and tests try a few DTDs.", "anchors": ["src/axl_dtd.c: axl_dtd_get_root, __axl_dtd_get_new_root, __axl_dtd_get_is_parent, axl_dtd_parse"]}
