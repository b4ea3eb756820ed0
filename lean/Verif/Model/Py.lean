/-
The Python binding (py-axl/py_axl.c, py_axl_doc.c, py_axl_node.c, py_axl_attr_cursor.c): what a
Python program holds, how long libaxl's documents and nodes stay, and who frees them.

A Python object has a reference count; it goes away when the count comes to 0, and then the
destructor of its type runs (`py_axl_doc_dealloc`, `py_axl_node_dealloc`,
`py_axl_attr_cursor_dealloc`).  Using a document or a node that libaxl freed is undefined behaviour,
the outcome `none`.

Simplifications, for the whole file:
* numbers of objects, documents and nodes are never used twice, so that a dangling pointer is always
  noticed;
* the nodes of libaxl are a forest in which a node has its name, the document that its item names and
  its children; texts, comments, attributes are not represented (C24 and C25 are what justifies it);
* `axl_node_free` of a node that still has a parent, and placing a node that has one already, leave
  links to memory that is gone or lists that are broken; both count as undefined at once;
* allocation does not fail, the arguments have the types that `PyArg_ParseTuple` asks for, and the
  library is built without its log (`ENABLE_AXL_LOG`, src/axl_log.h:57-69).
Not modelled: `remove (False)`, `replace`, `deattach`, `set_empty`, `axl.Error`, `axl.Dtd`.
-/
namespace Axl.Py

/-- The nodes at one level, each with its number, its name, `node->holder->doc` (`none` also if
there is no holder) and the nodes below it. -/
inductive Forest where
  | nil
  | node (n : Nat) (name : List Char) (doc : Option Nat) (kids next : Forest)
deriving DecidableEq, Repr

namespace Forest

/-- The nodes at the top level, with their names. -/
def tops : Forest → List (Nat × List Char)
  | nil => []
  | node n s _ _ x => (n, s) :: x.tops

/-- All the nodes. -/
def ids : Forest → List Nat
  | nil => []
  | node n _ _ k x => n :: (k.ids ++ x.ids)

/-- The second level after the first. -/
def append : Forest → Forest → Forest
  | nil, g => g
  | node n s d k x, g => node n s d k (x.append g)

/-- The name of a node. -/
def nameOf (n : Nat) : Forest → Option (List Char)
  | nil => none
  | node m s _ k x => if m = n then some s else (k.nameOf n).or (x.nameOf n)

/-- `axl_node_get_doc` (src/axl_node.c:972-978). -/
def docOf (n : Nat) : Forest → Option (Option Nat)
  | nil => none
  | node m _ d k x => if m = n then some d else (k.docOf n).or (x.docOf n)

/-- The children of a node. -/
def kidsOf (n : Nat) : Forest → Option Forest
  | nil => none
  | node m _ _ k x => if m = n then some k else (k.kidsOf n).or (x.kidsOf n)

/-- The nodes that follow a node at its level. -/
def nexts (n : Nat) : Forest → Option (List (Nat × List Char))
  | nil => none
  | node m _ _ k x => if m = n then some x.tops else (k.nexts n).or (x.nexts n)

/-- The nodes that come before a node at its level, the nearest first. -/
def prevs (n : Nat) (acc : List (Nat × List Char)) : Forest → Option (List (Nat × List Char))
  | nil => none
  | node m s _ k x => if m = n then some acc else (k.prevs n []).or (x.prevs n ((m, s) :: acc))

/-- The parent of a node. -/
def parentOf (n : Nat) (up : Option Nat) : Forest → Option (Option Nat)
  | nil => none
  | node m _ _ k x => if m = n then some up else (k.parentOf n (some m)).or (x.parentOf n up)

/-- The first node of a list with this name. -/
def called (s : List Char) (l : List (Nat × List Char)) : Option Nat := (l.find? fun x => x.2 == s).map (·.1)

/-- Below the nodes of a level: the second loop of `axl_node_find_called` (src/axl_node.c:3764-3775). -/
def findBelow (s : List Char) : Forest → Option Nat
  | nil => none
  | node _ _ _ k x => ((called s k.tops).or (k.findBelow s)).or (x.findBelow s)

/-- The forest without a node and what is below it. -/
def without (n : Nat) : Forest → Forest
  | nil => nil
  | node m s d k x => if m = n then x else node m s d (k.without n) (x.without n)

/-- A node and what is below it. -/
def sub (n : Nat) : Forest → Option Forest
  | nil => none
  | node m s d k x => if m = n then some (node m s d k nil) else (k.sub n).or (x.sub n)

/-- The node at the top, with its item saying this document. -/
def setDoc (d : Option Nat) : Forest → Forest
  | nil => nil
  | node n s _ k x => node n s d k x

/-- `axl_item_set_child_ref` (src/axl_node.c:6410-6434): the tree becomes the last child of a node. -/
def addKid (p : Nat) : Forest → Forest → Forest
  | nil, _ => nil
  | node m s d k x, t => if m = p then node m s d (k.append t) x else node m s d (k.addKid p t) (x.addKid p t)

/-- `axl_item_set_after` (src/axl_node.c:6383-6407): the tree comes after a node. -/
def addAfter (r : Nat) : Forest → Forest → Forest
  | nil, _ => nil
  | node m s d k x, t => if m = r then node m s d k (t.append x) else node m s d (k.addAfter r t) (x.addAfter r t)

end Forest

/-- A call that goes from one node to another. -/
inductive Nav where
  | firstChild
  | next
  | previous
  | parent
  | nextCalled (s : List Char)
  | previousCalled (s : List Char)
  | childCalled (s : List Char)
  | findCalled (s : List Char)
  | nthChild (i : Nat)
deriving DecidableEq, Repr

/-- `axl_node_get_first_child`, `axl_node_get_next`, `axl_node_get_previous`, `axl_node_get_parent`,
`axl_node_get_next_called`, `axl_node_get_previous_called`, `axl_node_get_child_called`,
`axl_node_find_called`, `axl_node_get_child_nth` (src/axl_node.c:2300-2488, 2555-2576, 3683-3826) on a
node: the node found.  `none` if the node is not there. -/
def Nav.go (f : Forest) (n : Nat) : Nav → Option (Option Nat)
  | .firstChild => (f.kidsOf n).map fun k => k.tops.head?.map (·.1)
  | .next => (f.nexts n).map fun l => l.head?.map (·.1)
  | .previous => (f.prevs n []).map fun l => l.head?.map (·.1)
  | .parent => f.parentOf n none
  | .nextCalled s => (f.nexts n).map (Forest.called s)
  | .previousCalled s => (f.prevs n []).map (Forest.called s)
  | .childCalled s => (f.kidsOf n).map fun k => Forest.called s k.tops
  | .findCalled s => (f.kidsOf n).map fun k => (Forest.called s k.tops).or (k.findBelow s)
  | .nthChild i => (f.kidsOf n).map fun k => k.tops[i]?.map (·.1)

/-- The memory of libaxl: the documents, each with its root (`nil` if it has none), the nodes that are
in no document and have no parent, with what is below them, and the number of the next node. -/
structure Mem where
  docs : List (Option Forest)
  loose : Forest
  nextNode : Nat
deriving DecidableEq, Repr

namespace Mem

/-- Everything. -/
def forests (m : Mem) : List Forest := m.loose :: m.docs.filterMap id

/-- All the nodes. -/
def ids (m : Mem) : List Nat := m.forests.flatMap Forest.ids

/-- Look a node up, wherever it is. -/
def look (m : Mem) (g : Forest → Option α) : Option α := m.forests.findSome? g

/-- Change every forest. -/
def map (m : Mem) (g : Forest → Forest) : Mem := { m with docs := m.docs.map (·.map g), loose := g m.loose }

/-- The root of a document, as a forest.  `none` if the document was freed. -/
def root (m : Mem) (d : Nat) : Option Forest := m.docs[d]?.join

/-- `axl_doc_create` (src/axl_doc.c:1367-1389). -/
def docCreate (m : Mem) : Mem × Nat := ({ m with docs := m.docs ++ [some .nil] }, m.docs.length)

/-- `axl_doc_free` (src/axl_doc.c): the document and its nodes. -/
def docFree (m : Mem) (d : Nat) : Option Mem := do
  let _ ← m.root d
  some { m with docs := m.docs.set d none }

/-- `axl_node_create` (src/axl_node.c:395-406). -/
def nodeCreate (m : Mem) (s : List Char) : Mem × Nat :=
  ({ m with loose := m.loose.append (.node m.nextNode s none .nil .nil), nextNode := m.nextNode + 1 }, m.nextNode)

/-- `axl_node_free` (src/axl_node.c:5455-5478) of a node without parent. -/
def nodeFree (m : Mem) (n : Nat) : Option Mem :=
  if n ∈ m.loose.tops.map (·.1) then some { m with loose := m.loose.without n } else none

/-- `axl_node_remove (node, axl_true)` (src/axl_node.c:3492-3552). -/
def nodeRemove (m : Mem) (n : Nat) : Option Mem := do
  let _ ← m.look (Forest.nameOf n)
  some (m.map (Forest.without n))

/-- Take a node that has no parent out of the nodes without parent. -/
def take (m : Mem) (n : Nat) : Option (Forest × Mem) := do
  let t ← if n ∈ m.loose.tops.map (·.1) then m.loose.sub n else none
  some (t, { m with loose := m.loose.without n })

/-- `axl_node_set_child` (src/axl_node.c:3377-3388, 6295-6434). -/
def setChild (m : Mem) (p c : Nat) : Option Mem := do
  let (t, m) ← m.take c
  let d ← m.look (Forest.docOf p)
  some (m.map fun f => f.addKid p (t.setDoc d))

/-- `axl_node_set_child_after` (src/axl_node.c:3401-3408, 6383-6407).  A node without parent has no
item, or an item without parent. -/
def setChildAfter (m : Mem) (r c : Nat) : Option Mem := do
  let (t, m) ← m.take c
  let p ← m.look (Forest.parentOf r none)
  let p ← p
  let d ← m.look (Forest.docOf p)
  some (m.map fun f => f.addAfter r (t.setDoc d))

/-- `axl_doc_set_root` (src/axl_doc.c:2530-2546).  The root that was there is left alone. -/
def setRoot (m : Mem) (d : Nat) (c : Option Nat) : Option Mem := do
  let old ← m.root d
  match c with
  | none => some { m with docs := m.docs.set d (some .nil), loose := m.loose.append old }
  | some c => do
    let (t, m) ← m.take c
    some { m with docs := m.docs.set d (some (t.setDoc (some d))), loose := m.loose.append old }

end Mem

/-- The shape of a document that was parsed. -/
inductive Shape where
  | nil
  | node (name : List Char) (kids next : Shape)
deriving DecidableEq, Repr

/-- The nodes that the parser makes for a document, numbered from `i` on. -/
def Shape.build (d : Nat) : Shape → Nat → Forest × Nat
  | .nil, i => (.nil, i)
  | .node s k x, i =>
    let (fk, i') := k.build d (i + 1)
    let (fx, i'') := x.build d i'
    (.node i s (some d) fk fx, i'')

/-- `axl_doc_parse` (src/axl_doc.c:1881-1900) of a text that can be read: a document with a root. -/
def Mem.parse (m : Mem) (s : List Char) (kids : Shape) : Mem × Nat :=
  let (f, i) := (Shape.node s kids .nil).build m.docs.length m.nextNode
  ({ m with docs := m.docs ++ [some f], nextNode := i }, m.docs.length)

/-- What a Python object of the binding holds: `struct _PyAxlDoc` (py-axl/py_axl_doc.c:42-51),
`struct _PyAxlNode` (py-axl/py_axl_node.c:42-53), `struct _PyAxlAttrCursor`
(py-axl/py_axl_attr_cursor.c:42-50; the cursor itself belongs to the object, it leads to a node). -/
inductive Body where
  | doc (d : Nat) (finish : Bool)
  | node (n : Option Nat) (finish : Bool) (pyDoc : Option Nat)
  | cursor (n : Option Nat) (finish : Bool)
deriving DecidableEq, Repr

/-- A Python object: `ob_refcnt` and the rest. -/
structure Obj where
  rc : Nat
  body : Body
deriving DecidableEq, Repr

/-- The memory of libaxl, the Python objects, and the objects that the variables of the program hold,
one reference each. -/
structure World where
  mem : Mem
  objs : List (Option Obj)
  vars : List Nat
deriving DecidableEq, Repr

namespace World

/-- Nothing. -/
def start : World := ⟨⟨[], .nil, 0⟩, [], []⟩

/-- An object that is there. -/
def obj (w : World) (o : Nat) : Option Obj := w.objs[o]?.join

/-- Write an object. -/
def put (w : World) (o : Nat) (x : Option Obj) : World := { w with objs := w.objs.set o x }

/-- Write what an object holds. -/
def setBody (w : World) (o : Nat) (b : Body) : Option World := do
  let x ← w.obj o
  some (w.put o (some { x with body := b }))

/-- `tp_alloc`: a new object with one reference, which the program gets. -/
def new (w : World) (b : Body) : World × Nat :=
  ({ w with objs := w.objs ++ [some ⟨1, b⟩], vars := w.objs.length :: w.vars }, w.objs.length)

/-- `Py_INCREF`. -/
def incref (w : World) (o : Nat) : Option World := do
  let x ← w.obj o
  some (w.put o (some { x with rc := x.rc + 1 }))

/-- `py_axl_doc_dealloc` (py-axl/py_axl_doc.c:92-104). -/
def docDealloc (w : World) (d : Nat) (finish : Bool) : Option World :=
  if finish then do
    let m ← w.mem.docFree d
    some { w with mem := m }
  else some w

/-- `Py_DECREF` of an `axl.Doc`. -/
def decrefDoc (w : World) (o : Nat) : Option World := do
  let x ← w.obj o
  match x.body with
  | .doc d finish =>
    if x.rc ≤ 1 then do
      let w ← w.docDealloc d finish
      some (w.put o none)
    else some (w.put o (some { x with rc := x.rc - 1 }))
  | _ => none

/-- `self->finish_on_gc && axl_node_get_doc (self->node) == NULL` (py-axl/py_axl_node.c:98) and
`axl_node_free`. -/
def nodeFinish (w : World) (n : Option Nat) (finish : Bool) : Option World :=
  if finish then
    match n with
    | none => some w
    | some n => do
      let d ← w.mem.look (Forest.docOf n)
      match d with
      | some _ => some w
      | none => do
        let m ← w.mem.nodeFree n
        some { w with mem := m }
  else some w

/-- `py_axl_node_dealloc` (py-axl/py_axl_node.c:87-114). -/
def nodeDealloc (w : World) (n : Option Nat) (finish : Bool) (pyDoc : Option Nat) : Option World := do
  let w ← w.nodeFinish n finish
  match pyDoc with
  | none => some w
  | some q => w.decrefDoc q

/-- `Py_DECREF`.  The destructor of a cursor (py-axl/py_axl_attr_cursor.c:82-97) frees the cursor only. -/
def decref (w : World) (o : Nat) : Option World := do
  let x ← w.obj o
  if x.rc ≤ 1 then
    match x.body with
    | .doc _ _ => w.decrefDoc o
    | .node n finish pyDoc => do
      let w ← w.nodeDealloc n finish pyDoc
      some (w.put o none)
    | .cursor _ _ => some (w.put o none)
  else some (w.put o (some { x with rc := x.rc - 1 }))

/-- `py_axl_doc_new` (py-axl/py_axl_doc.c:62-86). -/
def docNew (w : World) : World × Nat :=
  let (m, d) := w.mem.docCreate
  ({ w with mem := m } : World).new (.doc d true)

/-- `py_axl_doc_create` (py-axl/py_axl_doc.c:414-437): the document that the new object came with is
freed. -/
def docCreate (w : World) (d : Nat) (finish : Bool) : Option (World × Nat) := do
  let (w, o) := w.docNew
  match (← w.obj o).body with
  | .doc e _ => do
    let m ← w.mem.docFree e
    let w ← ({ w with mem := m } : World).setBody o (.doc d finish)
    some (w, o)
  | _ => none

/-- `py_axl_node_create` (py-axl/py_axl_node.c:697-724). -/
def nodeCreate (w : World) (n : Nat) (finish : Bool) (pyDoc : Option Nat) : Option (World × Nat) := do
  let (w, o) := w.new (.node (some n) finish pyDoc)
  match pyDoc with
  | none => some (w, o)
  | some q => do
    let w ← w.incref q
    some (w, o)

end World

/-- What a call gives back. -/
inductive Value where
  | nothing
  | object (o : Nat)
  | text (s : List Char)
deriving DecidableEq, Repr

/-- The calls of a Python program.  `o`, `p`, `c` are objects that its variables hold. -/
inductive Op where
  | parse (s : List Char) (kids : Shape)
  | newDoc
  | newNode (s : Option (List Char))
  | root (o : Nat)
  | get (o : Nat) (path : List (List Char))
  | nav (o : Nat) (k : Nav)
  | name (o : Nat)
  | getDoc (o : Nat)
  | cursor (o : Nat)
  | cursorRead (o : Nat)
  | setRoot (o : Nat) (c : Option Nat)
  | setChild (p c : Nat)
  | setChildAfter (p c : Nat)
  | remove (o : Nat)
  | dup (o : Nat)
  | drop (o : Nat)
deriving DecidableEq, Repr

namespace World

/-- The node of an `axl.Node`, which may be NULL, and its `py_doc`. -/
def asNode (w : World) (o : Nat) : Option (Option Nat × Bool × Option Nat) := do
  match (← w.obj o).body with
  | .node n f q => some (n, f, q)
  | _ => none

/-- The document of an `axl.Doc`. -/
def asDoc (w : World) (o : Nat) : Option Nat := do
  match (← w.obj o).body with
  | .doc d _ => some d
  | _ => none

/-- `None`, or a new `axl.Node` that does not free its node. -/
def give (w : World) (n : Option Nat) (pyDoc : Option Nat) : Option (World × Value) :=
  match n with
  | none => some (w, .nothing)
  | some n => do
    let (w, o) ← w.nodeCreate n false pyDoc
    some (w, .object o)

/-- `axl_doc_get` (src/axl_doc.c) along names: the first is that of the root. -/
def walk (f : Forest) : List (List Char) → Option Nat
  | [] => none
  | [s] => Forest.called s f.tops
  | s :: l =>
    match Forest.called s f.tops with
    | none => none
    | some n =>
      match f.kidsOf n with
      | none => none
      | some k => walk k l

/-- A call of the program. -/
def step (w : World) : Op → Option (World × Value)
  -- `py_axl_doc_parse` (py-axl/py_axl.c:43-81), `py_axl_doc_parse_from_file` (83-120)
  | .parse s kids => do
    let (m, d) := w.mem.parse s kids
    let (w, o) ← ({ w with mem := m } : World).docCreate d true
    some (w, .object o)
  | .newDoc =>
    let (w, o) := w.docNew
    some (w, .object o)
  -- `py_axl_node_new` (py-axl/py_axl_node.c:64-83)
  | .newNode none =>
    let (w, o) := w.new (.node none false none)
    some (w, .object o)
  | .newNode (some s) =>
    let (m, n) := w.mem.nodeCreate s
    let (w, o) := ({ w with mem := m } : World).new (.node (some n) true none)
    some (w, .object o)
  -- the attribute `root` (py-axl/py_axl_doc.c:128-141)
  | .root o => do
    let d ← w.asDoc o
    let f ← w.mem.root d
    w.give (f.tops.head?.map (·.1)) (some o)
  -- `py_axl_doc_get_node` (py-axl/py_axl_doc.c:186-205)
  | .get o path => do
    let d ← w.asDoc o
    let f ← w.mem.root d
    w.give (walk f path) (some o)
  -- `py_axl_node_get_attr` (py-axl/py_axl_node.c:121-183) and the methods that look for a node (226-332)
  | .nav o k => do
    let (n, _, q) ← w.asNode o
    match n with
    | none => some (w, .nothing)
    | some n => do
      let r ← w.mem.look fun f => k.go f n
      w.give r q
  -- the attribute `name` (py-axl/py_axl_node.c:134-136)
  | .name o => do
    let (n, _, _) ← w.asNode o
    match n with
    | none => some (w, .nothing)
    | some n => do
      let s ← w.mem.look (Forest.nameOf n)
      some (w, .text s)
  -- the attribute `doc` (py-axl/py_axl_node.c:186-197)
  | .getDoc o => do
    let (n, _, _) ← w.asNode o
    match n with
    | none => some (w, .nothing)
    | some n => do
      let d ← w.mem.look (Forest.docOf n)
      match d with
      | none => some (w, .nothing)
      | some d => do
        let (w, o) ← w.docCreate d false
        some (w, .object o)
  -- `py_axl_node_attr_cursor_new` (py-axl/py_axl_node.c:480-486)
  | .cursor o => do
    let (n, _, _) ← w.asNode o
    match n with
    | none =>
      let (w, o) := w.new (.cursor none true)
      some (w, .object o)
    | some n => do
      let _ ← w.mem.look (Forest.nameOf n)
      let (w, o) := w.new (.cursor (some n) true)
      some (w, .object o)
  -- the attributes and methods of a cursor (py-axl/py_axl_attr_cursor.c:104-176)
  | .cursorRead o => do
    match (← w.obj o).body with
    | .cursor none _ => some (w, .nothing)
    | .cursor (some n) _ => do
      let _ ← w.mem.look (Forest.nameOf n)
      some (w, .nothing)
    | _ => none
  -- `py_axl_doc_set_attr` (py-axl/py_axl_doc.c:155-184): for an object that is not an `axl.Node`,
  -- `None` too, `py_axl_node_set_dealloc` writes outside of it
  | .setRoot o c => do
    let d ← w.asDoc o
    let c ← c
    let (n, _, q) ← w.asNode c
    let m ← w.mem.setRoot d n
    let w ← ({ w with mem := m } : World).setBody c (.node n false q)
    some (w, .nothing)
  -- `py_axl_node_set_child` (py-axl/py_axl_node.c:411-446)
  | .setChild p c => do
    let (n, f, _) ← w.asNode p
    match n with
    | none => some (w, .nothing)
    | some n => do
      let (k, fc, q) ← w.asNode c
      let m ← match k with
        | none => some w.mem
        | some k => w.mem.setChild n k
      let w := { w with mem := m }
      let d ← w.mem.look (Forest.docOf n)
      let w ← w.setBody c (.node k (if d.isSome || f then false else fc) q)
      some (w, .nothing)
  -- `py_axl_node_set_child_after` (py-axl/py_axl_node.c:448-478)
  | .setChildAfter p c => do
    let (n, f, _) ← w.asNode p
    let n ← n
    let (k, fc, q) ← w.asNode c
    let k ← k
    let m ← w.mem.setChildAfter n k
    let w := { w with mem := m }
    let d ← w.mem.look (Forest.docOf n)
    let w ← w.setBody c (.node k (if d.isSome || f then false else fc) q)
    some (w, .nothing)
  -- `py_axl_node_remove` (py-axl/py_axl_node.c:488-506)
  | .remove o => do
    let (n, f, q) ← w.asNode o
    let m ← match n with
      | none => some w.mem
      | some n => w.mem.nodeRemove n
    let w ← ({ w with mem := m } : World).setBody o (.node none f q)
    some (w, .nothing)
  -- one more variable for the same object
  | .dup o => do
    let w ← w.incref o
    some ({ w with vars := o :: w.vars }, .object o)
  -- a variable goes away or is given another value
  | .drop o => do
    let w ← ({ w with vars := w.vars.erase o } : World).decref o
    some (w, .nothing)

/-- A program: its calls, in order. -/
def run (w : World) : List Op → Option World
  | [] => some w
  | op :: ops => do
    let (w, _) ← w.step op
    run w ops

end World

end Axl.Py
