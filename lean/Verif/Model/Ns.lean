/-
Namespaces (ns/axl_ns_doc.c, ns/axl_ns_node.c): tables of declarations attached to nodes as annotations, the
validation of a document and the comparison of nodes.

The tree is the one of `Verif.Model.Tree`, the annotations those of `Verif.Model.Annotate`, and the
attributes of a node those of `Verif.Model.Attr`, given by a function from the nodes.

Simplifications, for the whole file:
* the functions write a terminator over the ":" of a name, use the prefix, and write the ":" back on
  every way out; here the prefix is taken from the name, which is not written;
* `axl_memcmp (name, "xmlns", 5)` asks for five bytes of a name that may be shorter: the answer is
  known at its terminator, which no byte of "xmlns" equals, and the bytes that follow are
  not represented;
* a table that is replaced by a later validation is not freed.
-/
import Verif.Model.Annotate
import Verif.Model.Attr
import Verif.Model.Lit

namespace Axl

/-- `struct _axlNsTable` (ns/axl_ns_doc.c:65-71): `none` is NULL. -/
structure NsTable where
  table     : Option (AxlHash (List Char) (List Char) Unit)
  defaultNs : Option (List Char)

/-- The annotations, and the tables in memory with the next address for a table. -/
structure NsState where
  notes  : Notes
  tables : Nat → Option NsTable
  next   : Nat

/-- `NS_TABLE` (ns/axl_ns_doc.c:56). -/
def nsKey : List Char := c!"__axl:ns-table"

/-- `axl_memcmp (name, "xmlns", 5)` (ns/axl_ns_doc.c:99, 260). -/
def isXmlns (name : List Char) : Bool := c!"xmlns".isPrefixOf name

/-- The loops that look for ":" (ns/axl_ns_doc.c:205-217, 272-284, ns/axl_ns_node.c:344-357): its position. -/
def colonFrom : Nat → List Char → Option Nat
  | _, [] => none
  | i, c :: cs => if c = ':' then some i else colonFrom (i + 1) cs

namespace NsState

/-- A new table, installed in the node (ns/axl_ns_doc.c:106-115). -/
def newTable (st : NsState) (n : Nat) : Option (Nat × NsState) :=
  match st.notes.annotate n nsKey none (some (.pointer st.next)) (some 1) with
  | none => none
  | some a => some (st.next, ⟨a, fun q => if q = st.next then some ⟨none, none⟩ else st.tables q, st.next + 1⟩)

/-- The table to use: the one created for this node or a new one (ns/axl_ns_doc.c:106-115). -/
def tableFor (st : NsState) (n : Nat) (p : Option Nat) : Option (Nat × NsState) :=
  match p with
  | some q => some (q, st)
  | none => st.newTable n

/-- Overwrite a table. -/
def put (st : NsState) (q : Nat) (t : NsTable) : NsState :=
  { st with tables := fun r => if r = q then some t else st.tables r }

/-- `ns_table->defaultNs = value` (ns/axl_ns_doc.c:130). -/
def setDefault (st : NsState) (q : Nat) (v : Option (List Char)) : Option NsState :=
  match st.tables q with
  | none => none
  | some t => some (st.put q { t with defaultNs := v })

/-- `axl_hash_new_full (axl_hash_string, axl_hash_equal_string, 1)` (ns/axl_ns_doc.c:141). -/
def newHash : AxlHash (List Char) (List Char) Unit :=
  AxlHash.newFull (fun s => hashString (some s)) (fun a b => hashEqualString (some a) (some b)) 1

/-- The declaration of a prefix (ns/axl_ns_doc.c:139-156): `some none` if the table already has it. -/
def declare (st : NsState) (q : Nat) (pre : List Char) (v : Option (List Char)) : Option (Option NsState) :=
  match st.tables q with
  | none => none
  | some t =>
    match (t.table.getD newHash).exists pre with
    | none => none
    | some true => some none
    | some false =>
      match (t.table.getD newHash).insertFull pre none v none with
      | none => none
      | some h => some (some (st.put q { t with table := some h }))

/-- `__axl_ns_node_check_and_install_ns_decls` (ns/axl_ns_doc.c:88-166): the result, the cursor and the state.  `found`
is `default_found`, `p` is `ns_table`.  The number bounds the iterations. -/
def installLoop (n : Nat) : Nat → AttrCursor → Bool → Option Nat → NsState → Option (Bool × AttrCursor × NsState)
  | 0, _, _, _, _ => none
  | k + 1, c, found, p, st =>
    match c.hasItem with
    | none => none
    | some false => some (true, c, st)
    | some true =>
      match c.getKey, c.getValue, c.next with
      | some (some attr), some v, some c' =>
        if !isXmlns attr then installLoop n k c' found p st
        else
          match st.tableFor n p with
          | none => none
          | some (q, st) =>
            if attr.length = 5 then
              if found then some (false, c, st)
              else
                match st.setDefault q v with
                | none => none
                | some st => installLoop n k c' true (some q) st
            else
              match st.declare q (attr.drop 6) v with
              | none => none
              | some none => some (false, c, st)
              | some (some st) => installLoop n k c' found (some q) st
      | _, _, _ => none

/-- `axl_node_annotate_get (node, NS_TABLE, axl_false)` read as a table (ns/axl_ns_doc.c:225, 290, 480, 519):
`some none` is NULL.  Another kind of data under the key is not a table. -/
def tableOf (h : Heap) (st : NsState) (n : Nat) : Option (Option NsTable) :=
  match st.notes.get h n nsKey false with
  | none => none
  | some none => some none
  | some (some (.pointer q)) => (st.tables q).map some
  | some (some _) => none

/-- `ns_table != NULL && axl_hash_exists (ns_table->table, prefix)` (ns/axl_ns_doc.c:228, 293, 483); `axl_hash_exists` of a
hash that is NULL is false (src/axl_hash.c:227). -/
def has (t : Option NsTable) (pre : List Char) : Option Bool :=
  match t with
  | none => some false
  | some t =>
    match t.table with
    | none => some false
    | some h => h.exists pre

/-- The loop from a node to the root (ns/axl_ns_doc.c:222-249, 287-314): whether the prefix is declared. -/
def declared (h : Heap) (st : NsState) (pre : List Char) : Nat → Nat → Option Bool
  | 0, _ => none
  | k + 1, n =>
    match st.tableOf h n with
    | none => none
    | some t =>
      match has t pre with
      | none => none
      | some true => some true
      | some false =>
        match h.getParent n with
        | none => none
        | some none => some false
        | some (some p) => declared h st pre k p

/-- The check of a name, of the node or of an attribute (ns/axl_ns_doc.c:201-250, 270-315). -/
def nameFine (h : Heap) (st : NsState) (n : Nat) (name : List Char) : Option Bool :=
  match colonFrom 0 name with
  | none => some true
  | some i => declared h st (name.take i) (h.nextNode + 1) n

/-- The check of the attributes (ns/axl_ns_doc.c:256-320). -/
def attrsFine (h : Heap) (st : NsState) (n : Nat) : Nat → AttrCursor → Option Bool
  | 0, _ => none
  | k + 1, c =>
    match c.hasItem with
    | none => none
    | some false => some true
    | some true =>
      match c.getKey, c.next with
      | some (some name), some c' =>
        if isXmlns name then attrsFine h st n k c'
        else
          match nameFine h st n name with
          | none => none
          | some false => some false
          | some true => attrsFine h st n k c'
      | _, _ => none

/-- The part of `__axl_ns_node_validate` about one node (ns/axl_ns_doc.c:172-325).  The cursor exists only
if the node has attributes. -/
def validateOne (attrs : Nat → Attrs) (h : Heap) (st : NsState) (n : Nat) : Option (Bool × NsState) :=
  match h.nodes n with
  | none => none
  | some node =>
    if (attrs n).hasAttributes then
      match AttrCursor.new (attrs n) with
      | none => none
      | some c =>
        match installLoop n ((attrs n).num + 1) c false none st with
        | none => none
        | some (false, _, st) => some (false, st)
        | some (true, c, st) =>
          match nameFine h st n node.name with
          | none => none
          | some false => some (false, st)
          | some true =>
            match c.first with
            | none => none
            | some c => (attrsFine h st n ((attrs n).num + 1) c).map fun b => (b, st)
    else (nameFine h st n node.name).map fun b => (b, st)

/-- The loop over the children (ns/axl_ns_doc.c:328-336). -/
def childLoop (f : NsState → Nat → Option (Bool × NsState)) (h : Heap) : Nat → NsState → Option Nat → Option (Bool × NsState)
  | _, st, none => some (true, st)
  | 0, _, some _ => none
  | k + 1, st, some c =>
    match f st c with
    | none => none
    | some (false, st) => some (false, st)
    | some (true, st) =>
      match h.getNext c with
      | none => none
      | some next => childLoop f h k st next

/-- `__axl_ns_node_validate` (ns/axl_ns_doc.c:172-340).  The number bounds the depth. -/
def validateDepth (attrs : Nat → Attrs) (h : Heap) : Nat → NsState → Nat → Option (Bool × NsState)
  | 0, _, _ => none
  | d + 1, st, n =>
    match validateOne attrs h st n with
    | none => none
    | some (false, st) => some (false, st)
    | some (true, st) =>
      match h.getFirstChild n with
      | none => none
      | some child => childLoop (validateDepth attrs h d) h h.nextNode st child

/-- `axl_ns_doc_validate` (ns/axl_ns_doc.c:431-450) for a document with this root (`none`: without root): the answer
and the state. -/
def validate (attrs : Nat → Attrs) (h : Heap) (st : NsState) (root : Option Nat) : Option (Bool × NsState) :=
  match root with
  | none => some (true, st)
  | some r => validateDepth attrs h h.nextNode st r

/-- `axl_ns_doc_node_check` (ns/axl_ns_doc.c:469-495). -/
def nodeCheck (h : Heap) (st : NsState) (pre ns : List Char) : Nat → Option Nat → Option Bool
  | _, none => some false
  | 0, some _ => none
  | k + 1, some n =>
    match st.tableOf h n with
    | none => none
    | some t =>
      match has t pre with
      | none => none
      | some true =>
        match t.bind (·.table) with
        | none => none
        | some hash => (hash.get pre).map fun v => Str.cmp v (some ns)
      | some false =>
        match h.getParent n with
        | none => none
        | some p => nodeCheck h st pre ns k p

/-- `axl_ns_doc_check_default` (ns/axl_ns_doc.c:509-534). -/
def checkDefault (h : Heap) (st : NsState) (ns : List Char) : Nat → Option Nat → Option Bool
  | _, none => some false
  | 0, some _ => none
  | k + 1, some n =>
    match st.tableOf h n with
    | none => none
    | some t =>
      match t.bind (·.defaultNs) with
      | some d => some (Str.cmp (some d) (some ns))
      | none =>
        match h.getParent n with
        | none => none
        | some p => checkDefault h st ns k p

/-- `axl_ns_node_cmp` (ns/axl_ns_node.c:91-131) with `axl_ns_node_is_prefixed` (ns/axl_ns_node.c:331-361). -/
def nodeCmp (h : Heap) (st : NsState) (n : Nat) (ns name : List Char) : Option Bool :=
  match h.nodes n with
  | none => none
  | some node =>
    match colonFrom 0 node.name with
    | some i =>
      match nodeCheck h st (node.name.take i) ns (h.nextNode + 1) (some n) with
      | none => none
      | some false => some false
      | some true => some (Str.cmp (some name) (some (node.name.drop (i + 1))))
    | none =>
      match checkDefault h st ns (h.nextNode + 1) (some n) with
      | none => none
      | some false => some false
      | some true => some (Str.cmp (some name) (some node.name))

/-- The loop of `axl_ns_node_get_child_called` and `axl_ns_node_get_next_called`
(ns/axl_ns_node.c:219-226, 262-269). -/
def nextLoop (h : Heap) (st : NsState) (ns name : List Char) : Nat → Option Nat → Option (Option Nat)
  | _, none => some none
  | 0, some _ => none
  | k + 1, some n =>
    match st.nodeCmp h n ns name with
    | none => none
    | some true => some (some n)
    | some false =>
      match h.getNext n with
      | none => none
      | some m => nextLoop h st ns name k m

/-- `axl_ns_node_get_child_called` (ns/axl_ns_node.c:211-229). -/
def getChildCalled (h : Heap) (st : NsState) (n : Nat) (ns name : List Char) : Option (Option Nat) :=
  match h.getFirstChild n with
  | none => none
  | some c => st.nextLoop h ns name h.nextNode c

/-- `axl_ns_node_get_next_called` (ns/axl_ns_node.c:250-273). -/
def getNextCalled (h : Heap) (st : NsState) (n : Nat) (ns name : List Char) : Option (Option Nat) :=
  match h.getNext n with
  | none => none
  | some c => st.nextLoop h ns name h.nextNode c

/-- The loop of `axl_ns_node_get_previous_called` (ns/axl_ns_node.c:302-309). -/
def previousLoop (h : Heap) (st : NsState) (ns name : List Char) : Nat → Option Nat → Option (Option Nat)
  | _, none => some none
  | 0, some _ => none
  | k + 1, some n =>
    match st.nodeCmp h n ns name with
    | none => none
    | some true => some (some n)
    | some false =>
      match h.getPrevious n with
      | none => none
      | some m => previousLoop h st ns name k m

/-- `axl_ns_node_get_previous_called` (ns/axl_ns_node.c:290-313). -/
def getPreviousCalled (h : Heap) (st : NsState) (n : Nat) (ns name : List Char) : Option (Option Nat) :=
  match h.getPrevious n with
  | none => none
  | some c => st.previousLoop h ns name h.nextNode c

/-- The loop of `axl_ns_node_find_called` (ns/axl_ns_node.c:177-188). -/
def findLoop (find : Nat → Option (Option Nat)) (h : Heap) : Nat → Option Nat → Option (Option Nat)
  | _, none => some none
  | 0, some _ => none
  | k + 1, some n =>
    match find n with
    | none => none
    | some (some c) => some (some c)
    | some none =>
      match h.getNext n with
      | none => none
      | some m => findLoop find h k m

/-- `axl_ns_node_find_called` (ns/axl_ns_node.c:164-192).  The number bounds the depth. -/
def findDepth (h : Heap) (st : NsState) (ns name : List Char) : Nat → Nat → Option (Option Nat)
  | 0, _ => none
  | d + 1, n =>
    match st.getChildCalled h n ns name with
    | none => none
    | some (some c) => some (some c)
    | some none =>
      match h.getFirstChild n with
      | none => none
      | some c => findLoop (findDepth h st ns name d) h h.nextNode c

/-- `axl_ns_node_find_called` (ns/axl_ns_node.c:164-192). -/
def findCalled (h : Heap) (st : NsState) (n : Nat) (ns name : List Char) : Option (Option Nat) :=
  st.findDepth h ns name h.nextNode n

end NsState
end Axl
