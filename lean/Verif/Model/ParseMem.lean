/-
Model of the parser of src/axl_doc.c over the memory of `Axl.Blocks`: every call of the C functions to the
stream, to `axl_error_new` and to `axl_free` is here.

Simplifications: those of `Axl.Parse`, except for the errors; the strings of the tree are those read from their
blocks when they are stored.  A node in construction is named by its height in the stack of opened nodes.
-/
import Verif.Model.MemStream

namespace Axl
namespace Blocks
open Str

/-- `axl_stack_peek (doc->parentNode)`: the height of the node at the top, NULL without nodes. -/
def top (st : Parse.St) : Option Nat := if st.opened = [] then none else some st.opened.length

/-- `axl_item_set_child (node, …)` for an item that is not a node; nothing for NULL. -/
def addTo (st : Parse.St) (node : Option Nat) (l : Leaf) : Parse.St :=
  match node with
  | none => st
  | some h => { st with opened := st.opened.mapIdx fun i o =>
      if i + h = st.opened.length then { o with items := o.items.append (.leaf l .nil) } else o }

/-- Updates the tree of the document. -/
def modTree (f : Parse.St → Parse.St) : M Unit := do
  let d ← getD
  setD { d with st := f d.st }

/-- An error is reported and the stream released, with the document linked to it: the end of every failed
function of the parser, for example src/axl_doc.c:604-605. -/
def fail (code : Int) (text : List Char) : M Unit := do
  errorNew code text
  streamFree

/-- The destination of an instruction (src/axl_doc.c:3460-3466, 3488-3502). -/
def addPI (node : Option Nat) (p : PI) : M Unit :=
  match node with
  | some h => modTree fun st => addTo st (some h) (.pi p)
  | none => modTree fun st => { st with pis := st.pis ++ [p] }

/-- `axl_doc_consume_pi` after its target (src/axl_doc.c:3470-3504). -/
def piContent (node : Option Nat) (target : Nat) : M Bool := do
  let name ← strdup target
  let found ← getUntil true [c!" ?>", c!"?>"]
  match found with
  | none => do
    free name
    fail (-1) c!"Found a error while reading the PI content"
    pure false
  | some (id, _) => do
    let n ← readStr name
    let v ← readStr id
    addPI node ⟨n, some v⟩
    free name
    pure true

/-- `axl_doc_consume_pi` (src/axl_doc.c:3414-3517). -/
def consumePi (node : Option Nat) : M Bool := do
  let r ← peek c!"<?"
  if r > 0 then do
    accept
    let found ← getUntil true [c!" ?>", c!"?>", c!" "]
    match found with
    | none => do
      fail (-1) c!"Found a error while reading the PI target name"
      pure false
    | some (id, k) => do
      let copy ← strdup id
      let low ← readBlock copy
      writeBlock copy (low.map toLower)
      let t ← readStr copy
      free copy
      if cmp (some t) (some c!"xml") then do
        fail (-1) c!"Using a reserved PI target name (xml), not allowed"
        pure false
      else if k = 0 ∨ k = 1 then do
        let n ← readStr id
        addPI node ⟨n, none⟩
        pure true
      else piContent node id
  else pure true

/-- The first half of the loop of `axl_doc_consume_comments` (src/axl_doc.c:3345-3368): if there was a comment;
`none` when the function returns axl_false. -/
def comment (parent : Option Nat) : M (Option Bool) := do
  skip
  let r ← inspect c!"<!--"
  if r > 0 then do
    let found ← getUntilRef [c!"-->"]
    match found with
    | none => do
      fail (-1) c!"detected an opened comment but not found the comment ending"
      pure none
    | some (start, size) => do
      let s ← getS
      let text ← M.ofOption (copyBytes s.mem start size)
      modTree fun st => addTo st parent (.comment text)
      pure (some true)
  else pure (some false)

/-- The second half (src/axl_doc.c:3371-3380). -/
def instruction : M (Option Bool) := do
  skip
  let d ← getD
  if d.header then do
    let r ← peek c!"<?"
    if r > 0 then do
      let ok ← consumePi (top d.st)
      if ok then pure (some true) else pure none
    else pure (some false)
  else pure (some false)

/-- The loop of `axl_doc_consume_comments` (src/axl_doc.c:3342-3395). -/
def commentsLoop (parent : Option Nat) : Nat → M Bool
  | 0 => fun _ => .loop
  | fuel + 1 => do
    let a ← comment parent
    match a with
    | none => pure false
    | some found => do
      let b ← instruction
      match b with
      | none => pure false
      | some found2 =>
        if found || found2 then commentsLoop parent fuel
        else do
          skip
          pure true

/-- `axl_doc_consume_comments` (src/axl_doc.c:3327-3396). -/
def comments : M Bool := do
  let d ← getD
  let s ← getS
  commentsLoop (top d.st) (s.size - s.index + 1)

/-- Writes a byte of a block. -/
def writeByte (id i : Nat) (c : Char) : M Unit := do
  let data ← readBlock id
  let data ← M.ofOption (wr data i c)
  writeBlock id data

/-- The initiator of an attribute value (src/axl_doc.c:959-973). -/
def quote : M (Option Char) := do
  let a ← inspect c!"\""
  if a > 0 then pure (some '"')
  else do
    let b ← inspect c!"'"
    if b > 0 then pure (some '\'') else pure none

/-- The string at a block, or NULL. -/
def readNull : Option Nat → M (Option (List Char))
  | some id => do
    let s ← readStr id
    pure (some s)
  | none => pure none

/-- The check for xml:space and its stack (src/axl_doc.c:1001-1032). -/
def space (name : List Char) (value : Option (List Char)) : M Bool :=
  if cmp (some name) (some c!"xml:space") then
    if cmp value (some c!"preserve") then do
      modTree fun st => { st with preserve := true :: st.preserve }
      pure true
    else if cmp value (some c!"default") then do
      modTree fun st => { st with preserve := false :: st.preserve }
      pure true
    else do
      fail (-2) c!"xml:space attribute found with other value than 'preserve' or 'default', this is not allowed."
      pure false
  else do
    modTree Parse.St.inherit
    pure true

/-- `axl_error_report` for a duplicated attribute (src/axl_doc.c:991-992, src/axl_error.c:195-231): the text near is
asked for before the call, with an error to fill or without. -/
def errorDuplicated : M Unit := do
  let near ← getNear 100
  let ask ← asked
  if ask then do
    let _ ← readStr near
    putError ⟨-3, c!"Duplicate attribute error", none⟩
  else pure ()

/-- An attribute that was read, on the node just opened, which is the one at the top (src/axl_doc.c:989-1038); the blocks
are its name and its value. -/
def storeAttr (id : Nat) (value : Option Nat) : M Bool := do
  let d ← getD
  let name ← readStr id
  let v ← readNull value
  match d.st.opened with
  | [] => fun _ => .ub
  | o :: os => do
    let has ← M.ofOption (o.attrs.hasAttribute name)
    if has || o.noValue.contains name then do
      errorDuplicated
      streamFree
      pure false
    else do
      let o ← M.ofOption (Parse.setAttr o name v).toOption
      setD { d with st := { d.st with opened := o :: os } }
      let ok ← space name v
      if ok then do
        skip
        pure true
      else pure false

/-- One attribute (src/axl_doc.c:932-1044). -/
def attrib : M Bool := do
  skip
  let found ← getUntil true [c!"="]
  match found with
  | none => do
    fail (-2) c!"Parse error while reading a node being opened"
    pure false
  | some (id, _) => do
    nullify
    let name ← readStr id
    if name = [] then do
      fail (-5) c!"Expected to find an attribute name (but found an empty value)"
      pure false
    else do
      let q ← quote
      match q with
      | none => do
        setAlloc false
        fail (-2) c!"Expected to find an attribute value initiator (\") or ('), every attribute value must start with them"
        pure false
      | some q => do
        let found ← getUntil true [[q]]
        nullify
        storeAttr id (found.map (·.1))

/-- The end of an empty node (src/axl_doc.c:889-906): the node at the top after it. -/
def emptyEnd : M (Option (Option Nat × Bool)) := do
  setAlloc false
  modTree Parse.St.pop
  let d ← getD
  pure (some (top d.st, true))

/-- The loop of `__axl_doc_parse_node` (src/axl_doc.c:878-1046), with `matched_chunk` and the node just opened: the
node for the caller and if it is empty; `none` when the function returns axl_false. -/
def attrLoop (matched : Nat) (node : Option Nat) : Nat → M (Option (Option Nat × Bool))
  | 0 => fun _ => .loop
  | fuel + 1 =>
    if matched = 1 then emptyEnd
    else do
      let r ← inspect c!"/>"
      if r > 0 then emptyEnd
      else if matched = 0 then do
        setAlloc false
        pure (some (node, false))
      else do
        let r ← inspect c!">"
        if r > 0 then do
          setAlloc false
          pure (some (node, false))
        else do
          let ok ← attrib
          if ok then attrLoop matched node fuel else pure none

/-- The name of a node: what `matched_chunk` is after the "/" at its end was removed (src/axl_doc.c:826-840). -/
def nameEnd (id k : Nat) : M Nat :=
  if k = 1 then pure 2
  else do
    let name ← readStr id
    if name.getLast? = some '/' then do
      writeByte id (name.length - 1) NUL
      pure 1
    else pure 0

/-- The node with the name at the block, opened, and the rest of its tag (src/axl_doc.c:842-1046). -/
def openNode (id matched : Nat) : M (Option (Option Nat × Bool)) := do
  let name ← readStr id
  modTree fun st => st.push name
  let d ← getD
  if matched = 2 then skip else pure ()
  let s ← getS
  attrLoop matched (top d.st) (s.size - s.index + 1)

/-- The name of a node and its attributes (src/axl_doc.c:811-1046). -/
def parseTag : M (Option (Option Nat × Bool)) := do
  setAlloc true
  let found ← getUntil true [c!">", c!" "]
  nullify
  match found with
  | none => do
    setAlloc false
    fail (-2) c!"expected an non empty content for the node name not found."
    pure none
  | some (id, k) => do
    let name ← readStr id
    if name = [] then do
      setAlloc false
      fail (-2) c!"expected an non empty content for the node name not found."
      pure none
    else do
      let matched ← nameEnd id k
      openNode id matched

/-- `__axl_doc_parse_node` (src/axl_doc.c:772-1050): the node and if it is empty; `none` when it returns axl_false. -/
def parseNode : M (Option (Option Nat × Bool)) := do
  let ok ← comments
  if ok then do
    let r ← inspect c!"<"
    let more ← remains
    if !(r > 0) && !more then do
      let d ← getD
      if d.st.opened = [] then
        fail (-2) c!"expected initial < for a root node definition, not found. An xml document must have, at least, one node definition."
      else fail (-2) c!"expected initial < for a node definition, not found."
      pure none
    else parseTag
  else pure none

/-- The C string at byte `start` of the memory of the stream. -/
def readAt (s : MStream) (start : Nat) : M (List Char) := M.ofOption (cstr (s.mem.drop start))

/-- The comparison of the name closed (src/axl_doc.c:1077-1109). -/
def closeMatch (start : Nat) : M Bool := do
  let d ← getD
  match d.st.opened with
  | [] => do
    fail (-1) c!"Found that the stack doesn't have any node opened, this means either an libaxl error or the xml being read is closing a node not opened"
    pure false
  | o :: _ => do
    let s ← getS
    let name ← readAt s start
    if cmp (some o.name) (some name) then pure true
    else do
      fail (-1) c!"An error was found while closing the opened xml node, parent opened and xml node being closed doesn't match"
      pure false

/-- `__axl_doc_parse_close_node` (src/axl_doc.c:1057-1110). -/
def closeNode : M Bool := do
  let found ← getUntilRef [c!">"]
  match found with
  | none => do
    fail (-1) c!"An error was found while closing the xml node"
    pure false
  | some (start, size) => do
    let s ← getS
    let c ← M.ofOption (rd s.mem ((start : Int) + size - 1))
    if isWhite c then do
      let mem ← M.ofOption (wr s.mem ((start : Int) + size - 1) NUL)
      setS { s with mem := mem }
      closeMatch start
    else closeMatch start

/-- What a pass of the loop of `__axl_doc_parse_common` ends with: the function returns NULL, the loop goes on or it
breaks, with the variable `node`. -/
inductive Step where
  | null
  | next (node : Option Nat)
  | done (node : Option Nat)
deriving DecidableEq, Repr

/-- A node is closed (src/axl_doc.c:1189-1213). -/
def passClose : M Step := do
  accept
  let ok ← closeNode
  if ok then do
    modTree fun st => { st.pop with preserve := st.preserve.tail }
    let d ← getD
    if d.st.opened = [] then pure (.done (top d.st)) else pure (.next (top d.st))
  else pure .null

/-- A CDATA section (src/axl_doc.c:1221-1243). -/
def passCdata (node : Option Nat) : M Step := do
  accept
  setAlloc true
  let found ← getUntil true [c!"]]>"]
  setAlloc false
  match found with
  | none => do
    fail (-1) c!"Unable to get CDATA content. There was an error."
    pure .null
  | some (id, _) => do
    nullify
    let text ← readStr id
    modTree fun st => addTo st node (.cdata text)
    pure (.next node)

/-- A node is opened (src/axl_doc.c:1248-1260). -/
def passOpen : M Step := do
  accept
  let r ← parseNode
  match r with
  | none => pure .null
  | some (node, _) => pure (.next node)

/-- The content of a node (src/axl_doc.c:1263-1289), with the index before the spaces. -/
def passContent (node : Option Nat) (index : Nat) : M Step := do
  let s ← getS
  if s.index > index then move index else pure ()
  setAlloc true
  let found ← getUntil false [c!"<"]
  setAlloc false
  match found with
  | none => do
    fail (-1) c!"an error was found while reading the xml node content"
    pure .null
  | some (id, _) => do
    nullify
    let text ← readStr id
    modTree fun st => addTo st node (.content text)
    pure (.next node)

/-- The second test of a pass: "<?" or "<!--" (src/axl_doc.c:1179). -/
def peekComments : M Bool := do
  let a ← peek c!"<?"
  if a > 0 then pure true
  else do
    let b ← peek c!"<!--"
    pure (decide (b > 0))

/-- One pass of the loop of `__axl_doc_parse_common` (src/axl_doc.c:1166-1289). -/
def pass (node : Option Nat) : M Step := do
  let s ← getS
  let d ← getD
  if d.st.preserves then pure () else skip
  let a ← peekComments
  if a then do
    let ok ← comments
    if ok then pure (.next node) else pure .null
  else do
    let b ← peek c!"</"
    if b > 0 then passClose
    else do
      let b ← peek c!"<![CDATA["
      if b > 0 then passCdata node
      else do
        let b ← peek c!"<"
        if b > 0 then passOpen
        else passContent node s.index

/-- The loop of `__axl_doc_parse_common` (src/axl_doc.c:1164-1290): axl_false when the function returns NULL. -/
def mainLoop : Nat → Option Nat → M Bool
  | 0, _ => fun _ => .loop
  | fuel + 1, node => do
    let more ← remains
    if more then do
      let r ← pass node
      match r with
      | .null => pure false
      | .next node => mainLoop fuel node
      | .done _ => pure true
    else pure true

/-- The copy of the encoding that is made, changed and released without a handler for it
(`axl_doc_configure_encoding`, src/axl_doc.c:524-575). -/
def configureEncoding : M Unit := do
  let d ← getD
  match d.encoding with
  | none => pure ()
  | some id => do
    let copy ← strdup id
    let b ← readBlock copy
    let b ← M.ofOption (trimWithSize b)
    let b ← M.ofOption (remove b.1 c!"-" false)
    let b ← M.ofOption (remove b c!"_" false)
    writeBlock copy (b.map toLower)
    free copy

/-- The encoding of the header (src/axl_doc.c:652-673). -/
def headerEncoding : M Bool := do
  let r ← inspectSeveral 0 0 [c!"encoding=\"", c!"encoding='"]
  if r > 0 then do
    let found ← getUntil true [c!"'", c!"\""]
    match found with
    | none => do
      fail (-2) c!"expected encoding value, not found."
      pure false
    | some (id, _) => do
      nullify
      let d ← getD
      setD { d with encoding := some id }
      pure true
  else pure true

/-- `memcmp ("yes", string_aux, 3) == 0` (src/axl_doc.c:690): it may read the three bytes. -/
def memcmpYes (data : List Char) : Option Bool :=
  if data.length < 3 then none else some (data.take 3 == c!"yes")

/-- The standalone part of the header (src/axl_doc.c:679-694).  The value stays in the stream. -/
def headerStandalone : M Bool := do
  let r ← inspectSeveral 0 0 [c!"standalone=\"", c!"standalone='"]
  if r > 0 then do
    let found ← getUntil true [c!"'", c!"\""]
    match found with
    | none => do
      fail (-2) c!"expected to receive standalone value, not found."
      pure false
    | some (id, _) => do
      let data ← readBlock id
      let yes ← M.ofOption (memcmpYes data)
      let d ← getD
      setD { d with alone := yes }
      pure true
  else pure true

/-- The end of the header (src/axl_doc.c:697-708). -/
def headerEnd : M Bool := do
  skip
  let r ← inspect c!"?>"
  if r > 0 then comments
  else do
    fail (-2) c!"expected to receive the xml trailing header ?>, not found."
    pure false

/-- The header from the version number on (src/axl_doc.c:648-708). -/
def headerRest : M Bool := do
  skip
  let ok ← headerEncoding
  if ok then do
    skip
    let ok ← headerStandalone
    if ok then headerEnd else pure false
  else pure false

/-- The header after "<?" (src/axl_doc.c:622-708). -/
def xmlDecl : M Bool := do
  let r ← inspect c!"xml"
  if r > 0 then do
    skip
    let r ← inspect c!"version="
    if r ≠ 0 then do
      skip
      let r ← inspectSeveral 0 0 [c!"\"1.0\"", c!"'1.0'"]
      if r ≠ 0 then headerRest
      else do
        fail (-2) c!"expected to find either \" or ' while procesing version number, not found."
        pure false
    else do
      fail (-2) c!"expected to find 'version=' declaration, not found."
      pure false
  else do
    fail (-2) c!"expected initial <?xml declaration, not found."
    pure false

/-- The document type declaration is skipped (src/axl_doc.c:718-727). -/
def doctype : M Bool := do
  let r ← inspect c!"<!DOCTYPE"
  if r > 0 then do
    let _ ← getUntilRef [c!">"]
    comments
  else pure true

/-- The encoding and the document type declaration (src/axl_doc.c:711-730). -/
def headerTail : M Bool := do
  configureEncoding
  doctype

/-- `__axl_doc_parse_xml_header` (src/axl_doc.c:597-731). -/
def parseHeader : M Bool := do
  let d ← getD
  if d.header then do
    fail (-1) c!"Found a new xml header expecification. Only one header is allowed for each xml document."
    pure false
  else do
    let bom ← check ['ï', '»', '¿']
    if bom then move 3 else pure ()
    let r ← inspect c!"<?"
    if r ≠ 0 then do
      let ok ← xmlDecl
      if ok then headerTail else pure false
    else headerTail

/-- The end of `__axl_doc_parse_common` (src/axl_doc.c:1293-1316). -/
def finish : M Bool := do
  let d ← getD
  if d.st.opened = [] then do
    unlink
    streamFree
    let d ← getD
    setD { d with cleaned := true }
    pure true
  else do
    fail (-1) c!"XML document is not balanced, still remains xml nodes"
    pure false

/-- The document after its header (src/axl_doc.c:1150-1316). -/
def parseBody : M Bool := do
  let d ← getD
  setD { d with header := true }
  let r ← parseNode
  match r with
  | none => pure false
  | some (node, empty) =>
    if empty then finish
    else do
      let s ← getS
      let ok ← mainLoop (s.size - s.index + 1) node
      if ok then finish else pure false

/-- A new document (`__axl_doc_new`, src/axl_doc.c:438-472). -/
def docNew : M Unit := setD ⟨Parse.St.new, none, false, false, false⟩

/-- `axl_doc_parse` (src/axl_doc.c:1849-1852, 1118-1317, src/axl_stream.c:561-565): if the result is a document, then it
is the one of the memory; otherwise it is NULL. -/
def docParse (entity : Option (List Char)) (size : Int) : M Bool :=
  match entity with
  | none => do
    putError ⟨-1, c!"Requested to open a stream without providing an memory chunk, file descriptor or a file path", none⟩
    pure false
  | some source => do
    streamNew source size
    docNew
    link
    let ok ← parseHeader
    if ok then parseBody else pure false

/-- The memory before the call: nothing of the parse is there.  `ask`: the caller gave where to store an error, and there
was none in it. -/
def World.start (ask : Bool) : World := ⟨fun _ => none, 0, none, none, if ask then some [] else none⟩

/-- What the functions of the document tell about it: its encoding is the string at the block. -/
def World.document (w : World) : Option Doc :=
  match w.doc with
  | none => none
  | some d =>
    match d.st.root with
    | none => none
    | some root =>
      some ⟨d.encoding.bind fun id => (w.heap id).map fun b => toStr b.data, d.alone, root, d.st.pis, d.st.noValue⟩

end Blocks
end Axl
