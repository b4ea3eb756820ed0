# Formal model of libaxl in Lean 4 — design

## What is here

* `properties.jsonl` – the properties (C01 …).
* `lean/Verif/Model/*.lean` – the model: one Lean function per C function, each with a comment
  citing the file and lines of `/repo` it models and the simplifications made.
* `lean/Verif/Spec/*.lean` – small independent specifications (what a user expects, written
  without using the model's algorithms).
* `lean/Verif/Proofs/*.lean` – helper lemmas.
* `lean/Verif/Props/*.lean` – the property theorems (`Cxx_…`), with non-vacuity examples beside them.
* `MANIFEST.json` – which theorem settles which property, and what is missing where it is partial.
* `AXIOMS.md` – the axioms that each theorem of the manifest depends on.
* `seeded/LOG.jsonl` – wrong programs tried against the theorems.

## Conventions of the model

* A C `char` is a Lean `Char`; a C string is the `List Char` before its terminator, so the byte at
  index `length` is NUL and anything after it is out of bounds.  An array changed in place is the list of
  its bytes, terminator included.  Bytes of `babel/` are `UInt8`.
* A pointer that may be NULL is an `Option`.  A memory that the C code reaches through pointers is
  an explicit heap (`Addr → Option Cell`); reading a freed or unallocated cell, or indexing out of
  bounds, is the distinct outcome `none`/`.ub`, never a default value.
* C `int` counters are unbounded `Nat`/`Int`, except where the property is about wrap-around
  (hash functions).  Memory allocation never fails (in the C code a failed `calloc` returns NULL and
  most callers check it; those branches are not modelled), except in C70, which is about it for the containers.
* A destroy function is modelled by logging the element it would be called on.
* Loops are structural recursion where they are structurally bounded, and take fuel where the C
  loop has no a-priori bound; theorems then show how much fuel suffices, or that no fuel does.
* Log output (`__axl_log`) and the text of error messages are not modelled.
* A theorem whose name ends in `_partial` has hypotheses that the English property does not have; its
  comment says which.  Where the property is false of the code outside them, a witness theorem
  beside it proves so on a concrete case.

## Plan and status per property

Status: P proved in full, p partial (see MANIFEST.json for what is missing).

| id | modelled | how proved | |
|----|----------|------------|--|
| C01 | `axl_list.c` over an explicit heap of nodes with next/previous pointers, first/last, length, node pool | representation invariant "doubly linked segment"; every operation refines the operation on `List`, over any history | P |
| C02 | `axl_list_add` two-ended scan | induction over the scan; sortedness, no duplicates, membership for every comparison satisfying the order axioms; instantiated for the library's comparisons | P |
| C03 | `__axl_list_internal_lookup` two-ended scan, `axl_list_exists_at` | characterisation for order comparisons on ordered lists; negation with a witness for `axl_list_equal_string`, `axl_list_equal_ptr` | p |
| C04 | destroy log of the list operations | invariant: added = destroyed + unlinked + still stored (as multisets) | P |
| C05 | `axl_list_copy` | fold of add; equal to `map` | P |
| C06 | cursor = list + current node | refinement to a zipper | P |
| C07 | `axl_stack.c`, array level | refinement to `List` | P |
| C08 | binary stack as runs of equal values, heap level | refinement to `List Bool` | P |
| C09–C12 | `axl_hash.c` as an array of chains, step growth, destroy log | refinement to finite map; permutation invariants for foreach and destruction; the capacity from the most pairs at a time (`Spec/HashCapacity.lean`) | P |
| C13 | hash cursor | forward: permutation of the pairs; backward: negation with a witness | p |
| C14, C15 | factories: blocks and offsets, the number of spares (`Model/FactorySpare.lean`) | disjointness invariant over histories; negation for element sizes over 512 | p, P |
| C16–C19 | string utilities of `axl_stream.c` | induction over strings against declarative specs | P, p, p, p |
| C20, C21 | escape/unescape and the size scan | induction over the string; round trip | P, p |
| C22, C23 | attribute store: list up to 10, hash beyond; the lookup that trims in place (`Model/AttrTrim.lean`) | refinement to map; negation for removal crossing the limit (values are escaped again) | p, P |
| C24 | items over an explicit heap with parent/first/last/next/previous | doubly linked invariant over any history; negation for removal of a first/last content item | p |
| C25 | navigation functions over the heap of C24, among nodes and among items (`Model/TreeItems.lean`) | from the invariant of C24 | P |
| C26 | flat size and dump, both modes, also of no document and of a document without root (`Model/DumpSize.lean`) | mutual induction over trees; a separate layout specification gives the text | p |
| C27 | dump, then parser | the text of the dump is in the parser's grammar (C28) and the grammar is functional there | p |
| C28 | parser over a stream in memory | what is accepted is in a relation between text and tree, written as a grammar | p |
| C29 | the same | every loop consumes input | P |
| C30 | iteration with the pending list, over the heaps of C24 and C01 | equals pre-order / level order; the user function may remove the node it is given | P |
| C31 | path lookup over the heap of C24, and the content of the node found (`Model/ContentAt.lean`) | induction over the path | P |
| C32 | equality functions over the algebraic tree | mutual induction; negations where they fail | p |
| C33 | `axl_node_copy` over the algebraic tree, and over the heap of C24 as one more call of the histories | mutual induction; over the heap, induction on the depth and the chain of items with a frame (everything below the first new address stays) | p |
| C34 | annotations over the heap of C24 and the hash of C09 | induction over the ancestor chain and over the history of calls | p |
| C35 | DTD content matcher, validation of documents | soundness and completeness against the regular language of the model, for decidable classes of content models; negations with witnesses | p |
| C36 | the same, with fuel | consumption argument for a decidable class; non-termination proved for all fuel on witnesses | p |
| C37 | attribute declarations, ID table (the hash of C09, with its NULL keys), references | the loop over the nodes keeps the table equal to the IDs seen | p |
| C38 | namespace tables and lookup along the ancestors | induction over the ancestor chain, over the state left by validation | p |
| C39 | UTF-8 check | equivalence with a declarative grammar | P |
| C40 | single byte decoder + the 10 generated tables, through the stream of a file | induction over the source; the tables checked entry by entry over their whole domain | p |
| C41 | xml:space stack discipline in the parser model | grammar with the mode in force; witnesses where it fails | p |
| C42 | instruction lookup | induction | P |
| C43 | parser model, where reading outside a block is `.ub` | the parser never answers `.ub` | p |
| C44 | stream over a file descriptor with arbitrary short reads | each reading function equals the one over memory, under stated conditions; witnesses outside | p |
| C45 | parser model | every text of a source grammar is accepted with the tree it denotes; witnesses outside it | p |
| C46 | DTD parser | every text of a source grammar is accepted with its declarations if and only if they meet the constraints; content models compared by their languages; negations with witnesses | p |
| C47 | the same; reading outside the text or NULL is `.ub` | never `.ub`; every loop consumes input, or the height of the elements bounds it; with references, a weight of what is left, where a character weighs more the higher its entity is; non-termination proved for all fuel on witnesses | p |
| C48 | the same | invariant of the declarations read | P |
| C49 | lookups over the parsed DTD; the functions that read a content model (`Model/DtdWalk.lean`) | induction over the lists, uniqueness from C48; a program that reads a content model rebuilds it (`Spec/DtdWalk.lean`) | p |
| C50 | `axl_dtd_are_equal` | equivalence with a declarative relation; negations where that is less than equality | p |
| C51 | the content functions of a node over the memory of each item | refinement of an abstract sequence of pieces, by induction over the calls | p |
| C52 | parser and dump models together | the tree of C45 is one of those of C27; equal trees give equal texts; witnesses outside | p |
| C53 | the parser again, over the memory of the stream, of the document and of the error: every block that is allocated, kept, forgotten or released | refinement of the parser of C28 by an invariant on who owns each block | p |
| C54 | `axl_doc_parse` after `axl_babel_init`: detection, normalisation of the declared name, check or conversion of the rest, and the parser of C28 on what they give | the parser cut at the place of the configuration; decision by the declared name; conversion of C40, check of C39 | p |
| C55 | the parser of C28 again over the stream of a file (C44), with its buffer of 8192 bytes | simulation of the parser in memory, function by function, for two kinds of streams: all in the buffer, and read as it goes; witnesses at the end of the buffer | p |
| C56 | the four functions that write to a file, over a system that may not open, take or keep all of the text | the dump of C26 with any behaviour of the system; read back through C27 and C55: the text of a document goes through an automaton that finds white space behind a `>` and the openings that may be split; a long text read symbolically up to the end of the buffer | p |
| C57 | the blocks of documents, nodes, names, attributes, annotations, items and contents, with the flags that say who owns them, for 24 calls of the API | an invariant over histories: the blocks not given back are, without repetition, those the trees lead to, and the memory of a document is there as long as a node uses it; witnesses where it is false | p |
| C58 | the functions that print with a format, over any C library; `axl_stream_strdup_n`, arrays of strings | computation on the memory of the result; induction over the array | p |
| C59 | the functions that parse strings and formats, with the strings they join and free, over the parser of C53 | invariant of the loop that joins: one string, the text so far; then C53 and C58 | p |
| C60 | the Python binding: reference counts, who frees documents and nodes, for programs that parse and read | invariant of every history: every document and node without parent has one owner, the counts are the references, a node that is held leads to its document | P |
| C61 | the same, with programs that make, place and remove nodes, `node.doc` and cursors | the same invariant, for programs that take care; eight programs that do not, and what happens | p |
| C62 | the blocks that `axl_dtd_parse` allocates, passes on, releases or forgets | the parse with blocks follows the parser over texts: at each step the blocks not released are those of the stream, of the DTD and of what is under construction | p |
| C63 | the buffers of a stream in memory and `axl_stream_push`, byte by byte | the stream shows a text, a place and a look: kept by every call, in every history | p |
| C64 | `axl-knife --htmlize`: the page printed for a tree, with the attribute cursor | a reader of pages (tags, character references): the page is read by pieces, by induction on the tree | p |
| C65 | `axl_stream_get_until_zero` over the file streams of C44, and the loop that reads all | the loop invariant of C44, with what was not seen; induction on the turns | p |
| C66 | `axl-knife --dtd-to-c`: the header printed for a path and the lines of a file | how C reads a header (joined lines, literals); the lines of C65; words, by induction on the lines | p |
| C67 | the exarg library: tables of options, `exarg_parse` with its checks, what it tells afterwards | a grammar of command lines; induction on the words; the reading is unique. Not stated: what `exarg_set_obligatory`, `exarg_accept_free_args` and the check of short names of `exarg_install_arg` do to the configuration (edits of them survive, see `seeded/LOG.jsonl`) | p |
| C68 | `main` of `axl-knife` over C67, for any files | what a command line asks for, by the grammar of C67; cases on the options | p |
| C69 | `axl_hash.c` with nodes as cells in the pieces of the factory model, `next` pointers, slots as pointers; following a pointer to no node in use is undefined | refinement of the table with lists: segments of memory, frame lemmas, the pieces of the slots are disjoint; then C09, C11, C12, C13; the copy is shown to be a table with the history of the insertions of the copies | P |
| C70 | lists, stacks, binary stacks, hash tables and their factory, each call with the answers of the system to its allocations; a NULL that is followed is undefined | histories with refusals: a step is done or changes nothing; for a hash that cannot grow, the slots lead into one chain, in which lookups still find; a set of nodes closed under `next` is walked for ever | p |
| C71 | `axl_doc_parse_from_file` after `axl_babel_init`: the detection on the first bytes of the buffer, the check and the decoder set in the stream, the parser of C55 over it | simulation of the parser of C54 by the one over the stream, with the relations of C55; what is in the buffer is a part of the content, so a text in 7 bits passes the check at each refill; the declaration, byte by byte, for what is refused | p |
| C72 | `axl_dtd_parse_from_file`: all the functions of the parser of DTDs over the stream of a file, with `axl_stream_push` and `axl_stream_move` for the references to parameter entities | simulation of the parser of C46 by the one over the stream, with the relations of C55: all is in the buffer, or the rest of the file ends with white space | p |
| C73 | `axl_dtd_validate` (C35, C37) with the comparison, the copy, the writing and the parse | the walk over the attributes does not depend on their order; simulation of the validation of two trees that say the same | p |
| C74 | `axl_dtd_parse`, `axl_doc_parse`, `axl_dtd_validate` and the parses from files, together | the tree read and the elements written go together one by one (C45), the DTD read has what was written (C46), so the conformance of the tree (C35) is that of the texts | p |
| C75 | `axl_dtd_check_entity_ref_and_expand`, `axl_stream_push`, `__axl_dtd_parse_attlist` | relation from a text to the one without references (Spec/DtdRefs.lean); the loop over the definitions gives the same for both, by induction on the relation, and what a declaration gives does not depend on what follows it | p |
| C76 | `Heap.exec` (the calls of C24), `interleave` (Spec/Threads.lean) | simulation: the forest of each thread alone is in the forest of all, with other numbers; each call keeps that for its thread and does not touch the nodes of the others; by induction on the schedule, and C24 for the pointers | p |
| C77 | all of `Model/Tree.lean` | frame rule: each function, on a heap to which other cells are added, gives the same with the cells added; the part of a heap with whole trees is again a picture of a forest; so a call runs on it (C24) | p |
| C78 | `wrap`, `showUsage`, `depString`, `helpItem`, `showHelp`, `basename`, `disableHelp` (`Model/ExargHelp.lean`) | invariant of the loop on the words (the line so far is shorter than the width; the lines printed and the words left are the text); split/join of C17 | p |
| C79 | `Heap.sizeDepth`, `Heap.dumpDepth`, `Heap.dumpNode`, `Heap.dumpDoc`, `Heap.equalDepth` (`Model/TreeDump.lean`) over the heap of `Model/Tree.lean` | refinement: the chain of cells of a node (invariant of C24) is the list of items of the tree; induction on the depth and on the chain | p |
| C80 | `Load.node`, `Load.items`, `Load.root`, `Load.attrs` (`Model/Load.lean`): the calls of the parser on nodes | induction on the tree: the calls fit (C24), give the parent one child more and leave the nodes before as they were; then C79; with attributes (`Work.load`, `Model/Build.lean`; `Spec/Edit.lean`), the steps of C81 on what is stored; no references by the grammar of C28 | p |
| C81 | `Work.tree`, `Work.copy`, `Work.setContent`, `Work.setCdata`, `Work.attr`, `Work.trimAttr` (`Model/Build.lean`): nodes in memory together with the attributes of each | the texts stored are the texts given, encoded: every call commutes with the encoding, a copy too, node by node with its attributes; then C22, C20, C79 and C27 | p |
| C82 | `Err.new`, `Err.report`, `Err.free`, `Err.wasOk`, `Err.get`, `Err.getCode` (`Model/Error.lean`): blocks of memory and variables; `Err.newAt`, `Err.nearTo`, `Err.following` (`Model/ErrorAt.lean`): the stream | refinement to what each variable shows (`Spec/Error.lean`), induction over the history; the blocks in use are counted | p |
| C83 | `Link.linkFull`, `Link.link`, `Link.unlink`, `Link.free` (`Model/StreamLink.lean`): the elements of a stream and the calls made when it is freed | induction over the history; specification by the places of the calls in it (`Spec/StreamLink.lean`); the specification determines the calls | P |
| C84 | `getRoot` (`Model/DtdRoot.lean`), the search of the root of `Model/DtdParse.lean` | invariant of the search; `Contains` and `NotInside` from the declarations (`Spec/DtdRoot.lean`) | P |

## What is modelled

| file | modelled | not modelled |
|------|----------|--------------|
| src/axl_list.c | all of the list and cursor functions | the thread-unsafe global pool sizes are constants |
| src/axl_stack.c | all | – |
| src/axl_hash.c | creation, insert, lookup, remove/delete, foreach 1–3, copy, cursors, free | nothing (C69 has the pointer links of the chains) |
| src/axl_factory.c | both factories | the bytes stored in the blocks |
| src/axl_stream.c | string utilities (trim, split, join, clean_split, replace, remove, cmp family, to_lower/upper, printing with a format); reading from memory and from a file descriptor, with decoding | sockets, buffers as such (`axl_stream_set_buffer_*`); the memory of a stream is modelled for C53 (`get_near_to`, `get_following`, `nullify`, `link`, `free`) |
| src/axl_node.c | attributes and their cursor; structural edits of nodes and items; navigation; escaping and contents; dump; annotations; comparison; copy; processing instructions; parsing from strings; who owns the memory | ITEM_REF creation (`axl_item_set_child_ref`) |
| src/axl_doc.c | parser, dump, iteration, path lookup, equality, instructions | `axl_doc_new_from_template`, handlers for encodings that are not those of babel |
| src/axl_dtd.c | parser, content matcher, attribute checks, IDs, references, the validation loop, lookups, comparison, the parse of files (C72) | error texts; freeing but for the parser (C62) |
| ns/ | declaration tables, validation, comparison and searches | – |
| babel/ | UTF-8 check, ISO-8859 tables and decoder, detection of the codification and configuration of a stream in memory or of a file (C71) | `axl_babel_identity_utf8` (not used) |
| knife/ | `--htmlize` (C64), `--dtd-to-c` (C65, C66), the reading of command lines (C67, `exarg.c`), the help (C78) and `main` (C68) | `exarg_end`, `exarg` with threads |
| py-axl/ | documents, nodes, attribute cursors and who frees them (C60, C61) | the objects for lists, stacks, hashes, streams, DTDs and errors |
| test/ | – | all |

### Simplifications of particular modules

* Tree (C24, C25, C30, C31, C34, C38): addresses are never reused, so a dangling pointer is always noticed;
  memory from the pool of a document is treated as freed when libaxl gives it up; nodes do not belong to
  documents; no ITEM_REF.
* Documents as values (C26–C29, C32, C33, C35–C37, C41–C45): a chain of items is a list; C24 is what justifies it.
* Parser: a node is linked to its parent when it is closed; stacks are lists (C07, C08); no encoding
  handlers; error messages are not built.  For C53 (`Model/MemStream`, `Model/ParseMem`) the same functions are modelled
  over the blocks of memory, with `previous_inspect`, `global_index`, the bytes written over in the text, the two allocators and
  the error; there the tree of the document is not made of blocks, and an allocation does not fail.
* Stream in memory: the text returned by reference is a copy; `previous_inspect` and `global_index` are not
  represented.  Stream of a file: `read` does not fail; a byte behind `stream_size` is undefined behaviour.
* Hash: a chain is a list (C69: nodes in memory that point to one another).  Keys are any type with a NULL test.
* DTD: declarations are kept in lists (C01); the content model of an element is an inductive tree; error messages
  are left out.
* Owners (C57, `Model/Own`): the blocks are modelled, not what they hold; the factories of a document are one pool; the
  items of a node and the pairs of a hash are lists; `axl_node_remove` and `axl_node_replace` are asked of nodes that have a
  parent or are the root of a document.
* Namespaces: the terminator written over ":" and restored is not represented.

## Where the code does not do what the property says

Each of these is a theorem unless marked (read): it was found reading the code and is not part of the model.

* Lists: `axl_list_exists` with `axl_list_equal_string`/`axl_list_equal_ptr` looks only at some positions (C03);
  `axl_list_add` with `axl_list_equal_string` stores duplicates (C02); a copy with `axl_list_equal_ptr` is reversed (C05).
* Hash: `axl_hash_equal_string` of one NULL key answers "equal", of two "different" (C09, C11, and C37 through the
  table of identifiers); a cursor placed at the last pair misses slot 0; removing while reading revisits (C13).
* Factory: elements over 512 bytes are out of the block (C14); the index of `axl_factory_spare_next` says one
  spare before anything was given back (`C14_no_spares`).
* Strings: `axl_stream_split` of "" gives nothing (C17); `axl_stream_remove` of all occurrences deletes too much or
  writes out of bounds when the string ends with a rotation of the pattern (C18); `axl_stream_cmp` with size 0 (C19).
* Escaping: a size that cuts "]]>" overflows (C21); text with "]]>" inside CDATA does not come back (C20).
* Contents: a CDATA section given with a size that is not its length keeps the whole string with that size, and trimming
  it can make the size negative (C51).
* Attributes: when a removal takes the store from eleven to ten, values are encoded again (C22).
* Attributes: axl_node_get_attribute_value_trimmed trims the value where it is stored, so that a lookup changes the document: it is
  written and compared otherwise after it (`C22_trimmed_lookup_changes_document`).
* Tree: removing or replacing a first or last text item leaves dangling `first`/`last`; emptying mixed content and
  removing a node twice lose children; transferring a node to itself (C24).  A node taken out of its tree keeps its
  old parent (C34).
* Dump: a document without root has a size, that of the header less one, though it cannot be written (C26,
  `C26_no_root_size`); a NULL instruction content is read; empty comments and negative tabular write out of the block (C26);
  comments come back padded, white-only texts are lost, instructions of the document are not written (C27).
  More than ten attributes change order at each round (C52).
* Parser: text after the root is not read (C28); `<a>/>` is taken for `<a/>`, so the content of `<a>/>x</a>` is lost
  (C28, C45, and after a dump C27, C52); empty comments, white spaces around `=` and two white spaces in an end tag
  are refused or taken for part of a name (C45); a `standalone` value shorter than two bytes makes it compare bytes
  out of the block (C43); the value of `xml:space` leaks to elements with more than one attribute (C41).
  The text of an instruction is lost in memory if a name that is not in a tag follows it and nothing else (`axl_doc.c:812-815`
  forgets the last chunk before looking at what was read); the global index told by an error counts some bytes twice; the
  text near to it is cut at the first byte written over (C53).
* Babel: an ISO 8859 document in memory is cut (C40, C54); a document that is too short or not in the UTF-8 it declares is refused
  without an error; the encoding detected by a mark is never used, because the assignment at `babel/axl_babel.c:366` is the
  wrong way round; UTF-32 is never detected, because its mark begins with that of UTF-16; a document in an unknown
  encoding says that it is in UTF-8; white spaces before the root are refused (C54).
* Files: a document of more than 8192 bytes that ends with its last tag is an error for some sizes, and so is one with a comment
  at the end of the buffer; the white space at the beginning of a text can be lost near to the end of the file (C55): the
  index to go back to is taken before the buffer is moved.  So some documents written to a file cannot be read from it; what
  `fclose` says is not looked at; `axl_node_dump_to_file` writes the pretty dump (C56).
* Memory: `axl_node_set_name_ref` on a node the parser made, and `axl_node_replace` with a node that was in another one, leak;
  `axl_node_free_full` never frees the children; a node taken out of a document keeps an item in the memory of the document and
  cannot be freed after it, nor can two documents that hold nodes of each other (C57).
* Formats: a failure of the C library gives a pointer that must not be used, or a text; the length of a format that is not correct is
  0 and not -1; a buffer of size 0 gives -1; without `vasprintf` a `va_list` is used twice (C58).
* Strings: `axl_doc_parse_strings` and `axl_node_parse_strings` give NULL for any text if no error is asked for, although it is
  optional, and NULL without an error if there are no strings (C59).
* Python: `node.doc`, an attribute cursor, and an `axl.Node` that the program made and placed do not keep the document or the node
  they lead to; a node placed in a placed node is freed by its object though it has a parent; `remove` leaves the other objects of
  the node; `doc.root = None` writes outside of the object; a root that is replaced is not freed (C61).
* DTD: an element declaration whose content model is wrong, or that repeats a name, is an error and its element is never
  released (`__axl_dtd_read_element_spec` and `__axl_dtd_add_element` fail without `axl_dtd_element_free`; C62).
* `axl_stream_push` after `axl_stream_peek` skips as many of the pushed characters as the look saw (C63).
* `axl-knife --htmlize` does not escape the names and values of attributes, so that a value with `<` (the parser accepts
  it) puts a tag in the page; it does not escape `&`, so that a text `&lt;` is shown as `<`; an element without attributes
  and content is shown as `<a>`, and never closed; instructions and references are not shown (C64).
* `axl_stream_get_until_zero` loses the last byte of a file when the last piece comes in several reads (the one not seen
  is neither compared nor returned), and leaves the stream one byte after its end, where `axl_stream_push` would copy a
  negative number of bytes; so `axl-knife --dtd-to-c` can lose the `>` that ends a DTD (C65).
* `axl-knife --dtd-to-c` writes backslashes as they are, so that the C string is another text; the name of the macro is not
  an identifier for a file name that begins with a digit or has other characters; and a value between `"` with a `'` in it
  makes a string that is no longer a DTD (C66).
* exarg: two options that exclude one another only make a message, after which the program goes on with both, and the
  dependencies of the options that come later in the table are not checked; `-1` is not accepted as a value, although `-12`
  is; options whose names begin with `help`, `usage` or `?` can never be given; a short name equal to an earlier long name
  is accepted and hidden; `/a.xml` before any option is taken for an option (C67).
* `axl-knife --htmlize --dtd-to-c -i f` prints the message and then writes the page of a null document; a failed
  `--check-xml` ends with status 0, and `--version` with a status that is not 0 (C68).
* Running out of memory (C70): lists and stacks are as they were.  `axl_binary_stack_push` does not notice that its inner stack
  stored nothing, and later a value that was pushed before is lost.  When a hash table cannot grow its chains have been linked
  together: pairs are visited more than once, a removal leaves a pointer to a node given back, and the next insertion of a new
  key never ends.  `axl_factory_create`, `axl_factory_get`, `axl_factory_release_spare`, `axl_list_cursor_new` and
  `axl_list_copy` check nothing, so creating a hash table, inserting in one and removing from one can write through NULL.
* Files with babel (C71): what is in the buffer is checked as if it were a whole text.  A document in UTF-8 of more than 8192 bytes
  gives NULL, without an error, when the first 8192 bytes end inside a character.  With a decoder, `axl_stream_prebuffer` at the
  end of the file answers once that there is more, although it has read nothing (`op_result` of C40), and a byte behind the
  content is looked at.
* DTDs in files (C72): the `-->` of a comment that comes in two reads is not found, and the DTD is an error.  When a reference to a
  parameter entity has no value, `axl_dtd_check_entity_ref_and_expand` goes back to an index of the buffer that a refill may
  have changed.
* Validation after writing (C73): a text of only white spaces makes an element declared EMPTY invalid; it is not there when the document is
  written and read, which is valid.
* Validity as XML says (C74): character data in an element with element content, attributes of an element that has no ATTLIST, comments and white
  space in an EMPTY element, and IDREFS that name nothing are accepted; a #FIXED attribute that is not written is an error.
* References to parameter entities (C75): only at the place of the type of an attribute; `(%names;)` in a content model declares a child with the name "%names;".
* Threads (C76): two threads that remove the same node use freed memory (`C76_shared`); the library has no locks.
* Footprint (C77): axl_node_remove of a node that was taken out before writes to its old parent, although that is in another tree (`C77_not_removed_twice`).
* Help (C78): an option installed without a description does not end its line in the help (`C78_no_description`); exarg_disable_help is documented to disable --help and --usage and does nothing (`C78_not_disabled`); the list of dependencies begins in column 35 and goes on in column 33 (`HelpOf`).
* C82: an error is written over, and its two blocks are lost, if the same variable is given to a second
  function that fails (`C82_second_report_leaks`); a report whose text could not be made is taken for no
  error (`C82_report_without_text`); without `vasprintf` a report with an argument is undefined behaviour
  (`C82_report_without_vasprintf`); without memory for its text `axl_error_new` writes through NULL
  (`C82_not_new_without_memory`) and `axl_error_report` leaves an error that is taken for none
  (`C82_report_without_memory`).
* DTD: if every declared element is in the content of some declared element, `axl_dtd_parse` does not end
  (`C84_no_root`).
* Comparison: an instruction without content is not equal to itself; `axl_node_are_equal` does not compare the
  items; `axl_doc_are_equal` trims (C32).  The copy of an entity reference has no data (C33).
* Iteration: the function gets NULL as the parent of the node where the iteration starts, even if it has a
  parent (`C30_start_parent_case`), and the answer is false if the function removes that node and goes on
  (`C30_start_removed`).
* Paths: "*" is documented as a wildcard and is an ordinary name (C31); `axl_doc_get_content_at` is documented to give NULL for a node without content
  and gives an empty string (`C31_content_at_empty`).
* Namespaces: any attribute that begins with "xmlns" is a declaration; a later validation keeps removed
  declarations; "xml" is not predeclared (C38).
* DTD: when the children end at an item that may be left out, the items after it are not looked at; a failed
  alternative leaves its children consumed; `(…)+` accepts no repetition; `(a,b)?` is not optional; at the root
  `(a,b)+` accepts one repetition only (C35).  `(a?)*` and a root declared ANY loop for ever (C36).  Nodes under
  ANY are not checked; a missing ID attribute puts a NULL key in the table of identifiers (C37).
* DTD parser: a separator that follows a group does not give its list a kind, so `((b,c)|d)` is a sequence and `(b,(c)|d)` is accepted; a content
  model that mentions its own element makes the search for the root loop for ever (C46); so does a parameter entity
  that refers to itself (C47).  Lists that are not closed or closed twice, names without separator and a declaration
  without `>` are accepted (C48).  `axl_dtd_get_attr_contraints` reads NULL for an element without attributes (C49).
  `axl_dtd_are_equal` does not compare the names in content models, their number of items or default values, reads
  NULL if the first DTD has more items, and answers false for a DTD with an entity without value and itself (C50).
* (read) in the DTD parser: `<!ATTLIST a>` is misread; external entities are refused but for `PUBLIC>`; the list of
  NOTATION is not read.
* Encodings: overlong forms and surrogates are accepted as UTF-8 (C39); documents in memory are cut when decoded and
  a variable is used without initial value (C40); terminators and characters split by a read (C44).
* (read) `axl_item_new` with ITEM_NODE gives NULL; character data
  in element content is not rejected.

## Trusted base

* Lean's kernel, and for each theorem only the axioms `propext`, `Classical.choice`, `Quot.sound`
  (`AXIOMS.md` lists them theorem by theorem, as `#print axioms` prints them); no axioms of our own, no `sorry`,
  no `native_decide`, no `bv_decide`.  No module of Mathlib is imported.
* The reading of the C code: the model is hand-written from the cited lines; the code is not run.
* Not modelled: sockets, memory exhaustion but in the containers (C70), logging, the texts of the errors that the library reports, the parts of the
  Python binding that C61 names, thread interleavings (the library keeps no shared mutable state but the log settings and
  the two codification hooks).
