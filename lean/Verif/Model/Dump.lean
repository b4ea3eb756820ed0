/-
Model of the dump functions of src/axl_node.c and src/axl_doc.c.

The memory written is the block allocated for the result; writing outside of it is undefined
behaviour (`none`), and so is reading a string through a NULL pointer or outside of its bytes.
Simplification: sizes do not overflow an int.  Unix line ends (`__AXL_OS_WIN32__` not defined).
-/
import Verif.Model.Doc
import Verif.Model.Lit

namespace Axl
namespace Dump
open Str

/-- The block being written and `desp`, where the next byte goes. -/
structure Out where
  mem  : List Char
  desp : Nat

/-- `memcpy (content + desp, src, n); desp += d;` where `src` is a string with its terminator. -/
def emit (o : Out) (src : List Char) (n d : Nat) : Option Out :=
  if o.desp + n ≤ o.mem.length ∧ n ≤ src.length + 1 then
    some ⟨o.mem.take o.desp ++ (src ++ [NUL]).take n ++ o.mem.drop (o.desp + n), o.desp + d⟩
  else none

/-- `__axl_node_get_flat_size_attributes_foreach` (src/axl_node.c:4541-4552). -/
def attrSize (name value : List Char) : Nat := 4 + name.length + value.length

/-- The walk of `__axl_node_get_flat_size_attributes` over the list (src/axl_node.c:4573-4580). -/
def listSize : List Attr → Nat → Nat
  | [], length => length
  | x :: xs, length => listSize xs (length + attrSize x.name x.value)

/-- The pairs visited by `axl_hash_foreach` (src/axl_node.c:4584); `strlen` of a NULL value is
undefined behaviour. -/
def pairsSize : List (List Char × Option (List Char)) → Nat → Option Nat
  | [], length => some length
  | (k, some v) :: ps, length => pairsSize ps (length + attrSize k v)
  | (_, none) :: _, _ => none

/-- `__axl_node_get_flat_size_attributes` (src/axl_node.c:4558-4592). -/
def attrsSize (a : Attrs) : Option Nat :=
  if !a.hasAttributes then some 0
  else if a.num ≤ 10 then
    match a.ptr with
    | .list l => some (listSize l 0)
    | .hash _ => none
  else
    match a.ptr with
    | .hash h => do
      let ps ← h.foreach (fun _ _ => false)
      pairsSize ps 0
    | .list _ => none

/-- `axl_pi_get_size` (src/axl_doc.c:2949-2955). -/
def piSize (p : PI) : Option Nat :=
  match p.content with
  | some c => some (p.name.length + c.length + 5)
  | none => none

/-- The first and the last byte of a comment, as `content[0]` and `content[content_size - 1]` read
them; without bytes the second one reads before the string. -/
def commentEnds (s : List Char) : Option (Char × Char) :=
  match s, s.getLast? with
  | x :: _, some y => some (x, y)
  | _, _ => none

/-- The ITEM_COMMENT branch of `axl_node_get_flat_size` (src/axl_node.c:4690-4712). -/
def commentSize (pretty : Bool) (level tabular : Int) (s : List Char) : Option Int :=
  match commentEnds s with
  | none => none
  | some (x, y) =>
    let size : Int :=
      if x = ' ' ∧ y = ' ' then s.length + 7
      else if x ≠ ' ' ∧ y = ' ' then s.length + 8
      else if x = ' ' ∧ y ≠ ' ' then s.length + 8
      else s.length + 9
    some (if pretty then size + ((level + 1) * tabular + 1) else size)

/-- The branches of `axl_node_get_flat_size` for items that are not nodes
(src/axl_node.c:4676-4721). -/
def leafSize (pretty : Bool) (level tabular : Int) : Leaf → Option Int
  | .content s => some s.length
  | .cdata s => some (s.length + 12)
  | .pi p => (piSize p).map fun n => (n : Int)
  | .comment s => commentSize pretty level tabular s
  | .ref s => some (s.length + 2)

mutual
/-- `axl_node_get_flat_size` (src/axl_node.c:4609-4732). -/
def nodeSize (pretty : Bool) (tabular : Int) : Int → Node → Option Int
  | level, .mk name attrs items =>
    match attrsSize attrs with
    | none => none
    | some na =>
      if items.haveChildsAux || (!items.haveChildsAux && !items.isEmpty) then
        match itemsSize pretty tabular level items with
        | none => none
        | some ni =>
          if pretty then
            if items.haveChildsAux then some (5 + 2 * name.length + na + (level * tabular * 2 + 2) + ni)
            else some (5 + 2 * name.length + na + (level * tabular + 1) + ni)
          else some (5 + 2 * name.length + na + ni)
      else if pretty then some (name.length + 4 + na + (level * tabular + 1))
      else some (name.length + 4 + na)
/-- The loop of `axl_node_get_flat_size` over the items (src/axl_node.c:4668-4726). -/
def itemsSize (pretty : Bool) (tabular : Int) : Int → Items → Option Int
  | _, .nil => some 0
  | level, .node n next =>
    match nodeSize pretty tabular (level + 1) n, itemsSize pretty tabular level next with
    | some a, some b => some (a + b)
    | _, _ => none
  | level, .leaf l next =>
    match leafSize pretty level tabular l, itemsSize pretty tabular level next with
    | some a, some b => some (a + b)
    | _, _ => none
end

/-- The opening of an attribute value: `'` unless the value has one
(src/axl_node.c:4754-4761). -/
def openQuote (o : Out) (value : List Char) : Option Out :=
  if value.contains '\'' then emit o ['=', '"'] 2 2 else emit o ['=', '\''] 2 2

/-- The end of an attribute value (src/axl_node.c:4768-4773). -/
def closeQuote (o : Out) (value : List Char) : Option Out :=
  if value.contains '\'' then emit o ['"'] 1 1 else emit o ['\''] 1 1

/-- `__axl_node_dump_attributes_at_foreach` (src/axl_node.c:4734-4780). -/
def dumpAttr (o : Out) (name value : List Char) : Option Out := do
  let o ← emit o [' '] 1 1
  let o ← emit o name name.length name.length
  let o ← openQuote o value
  let o ← emit o value value.length value.length
  closeQuote o value

/-- `__axl_node_dump_at_the_end` (src/axl_node.c:4782-4797): the last of the list first. -/
def dumpList (o : Out) : List Attr → Option Out
  | [] => some o
  | x :: xs =>
    match dumpList o xs with
    | none => none
    | some o => dumpAttr o x.name x.value

/-- `axl_hash_foreach2` with `__axl_node_dump_attributes_at_foreach` (src/axl_node.c:4821). -/
def dumpPairs : Out → List (List Char × Option (List Char)) → Option Out
  | o, [] => some o
  | o, (k, some v) :: ps =>
    match dumpAttr o k v with
    | none => none
    | some o => dumpPairs o ps
  | _, (_, none) :: _ => none

/-- `axl_node_dump_attributes_at` (src/axl_node.c:4805-4826). -/
def dumpAttrs (o : Out) (a : Attrs) : Option Out :=
  if !a.hasAttributes then some o
  else if a.num ≤ 10 then
    match a.ptr with
    | .list l => dumpList o l
    | .hash _ => none
  else
    match a.ptr with
    | .hash h => do
      let ps ← h.foreach (fun _ _ => false)
      dumpPairs o ps
    | .list _ => none

/-- `__axl_node_dump_at_write_indent` (src/axl_node.c:4841-4854): this many blanks. -/
def indent : Out → Nat → Option Out
  | o, 0 => some o
  | o, k + 1 =>
    match emit o [' '] 1 1 with
    | none => none
    | some o => indent o k

/-- `if (pretty_print) desp += __axl_node_dump_at_write_indent (content + desp, tabular, level)`
(src/axl_node.c:5028-5030, 5107-5109). -/
def indentIf (pretty : Bool) (tabular level : Int) (o : Out) : Option Out :=
  if pretty then indent o (tabular * level).toNat else some o

/-- `if (pretty_print) memcpy (content + desp, "\n", 1)` (src/axl_node.c:5055-5063). -/
def newlineIf (pretty : Bool) (o : Out) : Option Out :=
  if pretty then emit o ['\n'] 1 1 else some o

/-- The beginning of a comment (src/axl_node.c:4928-4934). -/
def openComment (o : Out) (x : Char) : Option Out :=
  if x = ' ' then emit o c!"<!--" 4 4 else emit o c!"<!-- " 5 5

/-- The end of a comment (src/axl_node.c:4944-4950). -/
def closeComment (o : Out) (y : Char) : Option Out :=
  if y = ' ' then emit o c!"-->" 3 3 else emit o c!" -->" 4 4

/-- The ITEM_COMMENT branch of `__axl_node_dump_items` (src/axl_node.c:4916-4962). -/
def dumpComment (pretty : Bool) (tabular level : Int) (o : Out) (s : List Char) : Option Out :=
  match commentEnds s with
  | none => none
  | some (x, y) => do
    let o ← indentIf pretty tabular (level + 1) o
    let o ← openComment o x
    let o ← emit o s s.length s.length
    let o ← closeComment o y
    newlineIf pretty o

/-- The ITEM_PI branch of `__axl_node_dump_items` (src/axl_node.c:4893-4915); `strlen` of a NULL
content is undefined behaviour. -/
def dumpPI (o : Out) (p : PI) : Option Out :=
  match p.content with
  | none => none
  | some c => do
    let o ← emit o ['<', '?'] 2 2
    let o ← emit o p.name p.name.length p.name.length
    let o ← emit o [' '] 1 1
    let o ← emit o c c.length c.length
    emit o ['?', '>'] 2 2

/-- The branches of `__axl_node_dump_items` for items that are not nodes
(src/axl_node.c:4871-4981). -/
def dumpLeaf (pretty : Bool) (tabular level : Int) (o : Out) : Leaf → Option Out
  | .content s => emit o s s.length s.length
  | .cdata s => do
    let o ← emit o c!"<![CDATA[" 9 9
    let o ← emit o s s.length s.length
    emit o c!"]]>" 3 3
  | .pi p => dumpPI o p
  | .comment s => dumpComment pretty tabular level o s
  | .ref s => do
    let o ← emit o ['&'] 1 1
    let o ← emit o s s.length s.length
    emit o [';'] 1 1

/-- The opening tag up to the attributes (src/axl_node.c:5042-5049, 5076-5083). -/
def dumpOpen (o : Out) (name : List Char) (attrs : Attrs) : Option Out := do
  let o ← emit o ['<'] 1 1
  let o ← emit o name name.length name.length
  dumpAttrs o attrs

/-- The closing tag (src/axl_node.c:5119-5138). -/
def dumpClose (pretty : Bool) (o : Out) (name : List Char) : Option Out := do
  let o ← emit o ['<', '/'] 2 2
  let o ← emit o name name.length name.length
  let o ← emit o ['>'] 1 1
  newlineIf pretty o

mutual
/-- `axl_node_dump_at` (src/axl_node.c:5009-5142). -/
def nodeDump (pretty : Bool) (tabular : Int) : Int → Out → Node → Option Out
  | level, o, .mk name attrs items => do
    let o ← indentIf pretty tabular level o
    let o ← dumpOpen o name attrs
    match items.isEmpty && !items.haveChildsAux with
    | true => do
      let o ← emit o [' ', '/', '>'] 3 3
      newlineIf pretty o
    | false => do
      let o ← emit o ['>'] 1 1
      match items.haveChildsAux with
      | true => do
        let o ← newlineIf pretty o
        let o ← itemsDump pretty tabular level o items
        let o ← indentIf pretty tabular level o
        dumpClose pretty o name
      | false => do
        let o ← itemsDump pretty tabular level o items
        dumpClose pretty o name
/-- `__axl_node_dump_items` (src/axl_node.c:4857-4992). -/
def itemsDump (pretty : Bool) (tabular : Int) : Int → Out → Items → Option Out
  | _, o, .nil => some o
  | level, o, .node n next =>
    match nodeDump pretty tabular (level + 1) o n with
    | none => none
    | some o => itemsDump pretty tabular level o next
  | level, o, .leaf l next =>
    match dumpLeaf pretty tabular level o l with
    | none => none
    | some o => itemsDump pretty tabular level o next
end

/-- `axl_new (char, size + 1)`: cleared memory.  A negative count asks for more memory than there
is and the code goes on with a NULL pointer. -/
def alloc (size : Int) : Option (List Char) :=
  if 0 ≤ size + 1 then some (List.replicate (size + 1).toNat NUL) else none

/-- `__axl_node_dump_common` (src/axl_node.c:4254-4293): the block given to the caller and the
size, or the failure (inner `none`) when the sizes do not agree. -/
def dumpNode (n : Node) (pretty : Bool) (level tabular : Int) : Option (Option (List Char × Int)) := do
  let size ← nodeSize pretty tabular level n
  let mem ← alloc size
  let o ← nodeDump pretty tabular level ⟨mem, 0⟩ n
  if (o.desp : Int) ≠ size then some none else some (some (o.mem, size))

/-- `axl_node_dump` (src/axl_node.c:4310-4316). -/
def nodeDumpPlain (n : Node) : Option (Option (List Char × Int)) := dumpNode n false 0 0

/-- `axl_node_dump_pretty` (src/axl_node.c:4335-4342). -/
def nodeDumpPretty (n : Node) (tabular : Int) : Option (Option (List Char × Int)) := dumpNode n true 0 tabular

/-- The part of the size for the encoding (src/axl_doc.c:1428-1430). -/
def encodingSize : Option (List Char) → Int
  | some e => 12 + e.length
  | none => 0

/-- `__axl_doc_get_flat_size_common` (src/axl_doc.c:1400-1443). -/
def docSize (d : Doc) (pretty : Bool) (tabular : Int) : Option Int :=
  match nodeSize pretty tabular 0 d.root with
  | none => none
  | some n => some (22 + (if pretty then 1 else 0) + (if d.standalone then 17 else 0) +
      encodingSize d.encoding + n)

/-- The encoding of the header (src/axl_doc.c:1501-1513). -/
def dumpEncoding (o : Out) : Option (List Char) → Option Out
  | none => some o
  | some e => do
    let o ← emit o c!"encoding='" 10 10
    let o ← emit o e e.length e.length
    emit o c!"' " 2 2

/-- The standalone part of the header (src/axl_doc.c:1516-1519). -/
def dumpStandalone (o : Out) (standalone : Bool) : Option Out :=
  if standalone then emit o c!"standalone='yes' " 17 17 else some o

/-- `__axl_doc_get_flat_size_common` for a document where the parser may have left an attribute with a
NULL value: `strlen` of it (src/axl_node.c:4548) is undefined behaviour. -/
def docSizeOf (d : Doc) (pretty : Bool) (tabular : Int) : Option Int :=
  if d.noValue.isEmpty then docSize d pretty tabular else none

/-- `__axl_doc_dump_common` (src/axl_doc.c:1449-1561). -/
def dumpDoc (d : Doc) (pretty : Bool) (tabular : Int) : Option (Option (List Char × Int)) := do
  let size ← docSizeOf d pretty tabular
  let mem ← alloc size
  let o ← emit ⟨mem, 0⟩ c!"<?xml version='1.0' " 20 20
  let o ← dumpEncoding o d.encoding
  let o ← dumpStandalone o d.standalone
  let o ← emit o c!"?>" 2 2
  let o ← newlineIf pretty o
  let o ← nodeDump pretty tabular 0 o d.root
  if (o.desp : Int) ≠ size then some none else some (some (o.mem, size))

/-- `axl_doc_dump` (src/axl_doc.c:1579-1585). -/
def docDumpPlain (d : Doc) : Option (Option (List Char × Int)) := dumpDoc d false 0

/-- `axl_doc_dump_pretty` (src/axl_doc.c:1604-1611). -/
def docDumpPretty (d : Doc) (tabular : Int) : Option (Option (List Char × Int)) := dumpDoc d true tabular

end Dump
end Axl
