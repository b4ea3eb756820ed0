/-
Model of the parser of src/axl_doc.c: `axl_doc_parse` for a document in memory.

Simplifications: a node is linked to its parent when it is closed instead of when it is opened (nothing
else is linked to the parent in between, and a parse that fails gives no document); the stacks are
lists, see C07 and C08 for the modelled `axlStack` and `axlBinaryStack`; there are no encoding
handlers (`axl_doc_set_detect_codification_func`, `axl_doc_set_configure_codification_func`); errors have
no message.
-/
import Verif.Model.Doc
import Verif.Model.Lit
import Verif.Model.Stream

namespace Axl

/-- The outcome of a parse function: a value, an error reported, undefined behaviour, or the loop has
not ended after the steps given. -/
inductive Res (α : Type) where
  | ok (a : α)
  | error
  | ub
  | loop
deriving DecidableEq, Repr

namespace Res

def bind {α β : Type} : Res α → (α → Res β) → Res β
  | .ok a, f => f a
  | .error, _ => .error
  | .ub, _ => .ub
  | .loop, _ => .loop

instance : Monad Res where
  pure := .ok
  bind := Res.bind

/-- `none` is undefined behaviour. -/
def ofOption {α : Type} : Option α → Res α
  | some a => .ok a
  | none => .ub

/-- The value, if there is one. -/
def toOption {α : Type} : Res α → Option α
  | .ok a => some a
  | _ => none

/-- Undefined behaviour. -/
def isUb {α : Type} : Res α → Bool
  | .ub => true
  | _ => false

/-- An error was reported. -/
def isError {α : Type} : Res α → Bool
  | .error => true
  | _ => false

end Res

namespace Parse
open Str Stream

/-- A node that was opened and not closed.  `noValue`: names of attributes stored with a NULL value;
they are kept apart (see `Axl.Doc`). -/
structure Open where
  name    : List Char
  attrs   : Attrs
  noValue : List (List Char)
  items   : Items

/-- The document while it is parsed (src/axl_doc.c:306-405): `parentNode` with the top first, the root
once it is closed, the instructions out of the root, `xmlPreserve` with the top first and the attributes
without value of the nodes closed. -/
structure St where
  opened   : List Open
  root     : Option Node
  pis      : List PI
  preserve : List Bool
  noValue  : List (List Char × List Char)

namespace St

/-- `axl_item_set_child (parent, …)`, with the node at the top as parent, for an item that is not a node;
nothing without it (src/axl_doc.c:3363-3364). -/
def addLeaf (st : St) (l : Leaf) : St :=
  match st.opened with
  | [] => st
  | o :: os => { st with opened := { o with items := o.items.append (.leaf l .nil) } :: os }

/-- The destination of an instruction: the node at the top or the document
(src/axl_doc.c:3460-3466, 3488-3502, 2634-2651, src/axl_node.c:4097-4114). -/
def addPI (st : St) (p : PI) : St :=
  match st.opened with
  | [] => { st with pis := st.pis ++ [p] }
  | _ :: _ => st.addLeaf (.pi p)

/-- A new node at the top (src/axl_doc.c:843-860, 2559-2580). -/
def push (st : St) (name : List Char) : St :=
  { st with opened := ⟨name, Attrs.empty, [], .nil⟩ :: st.opened }

/-- `axl_stack_pop (doc->parentNode)` (src/axl_doc.c:900, 1200): the node is complete. -/
def pop (st : St) : St :=
  match st.opened with
  | [] => st
  | [o] => { st with opened := [], root := some (.mk o.name o.attrs o.items),
                     noValue := st.noValue ++ o.noValue.map fun n => (o.name, n) }
  | o :: p :: os => { st with opened := { p with items := p.items.append (.node (.mk o.name o.attrs o.items) .nil) } :: os,
                              noValue := st.noValue ++ o.noValue.map fun n => (o.name, n) }

/-- `axl_binary_stack_peek (doc->xmlPreserve)`. -/
def preserves (st : St) : Bool := st.preserve.head?.getD false

/-- An attribute that is not xml:space (src/axl_doc.c:1028-1031). -/
def inherit (st : St) : St :=
  match st.preserve with
  | [] => { st with preserve := [false] }
  | b :: bs => { st with preserve := b :: b :: bs }

end St

/-- `axl_doc_consume_pi` (src/axl_doc.c:3414-3517), called with the stream at "<?". -/
def consumePi (st : St) (s : List Char) : Res (St × List Char) :=
  match eat s c!"<?" with
  | none => .ok (st, s)
  | some s =>
    match getUntil [c!" ?>", c!"?>", c!" "] s with
    | none => .error
    | some f =>
      if cmp (some (toLowerStr (toStr f.text))) (some c!"xml") then .error
      else if f.chunk = 0 ∨ f.chunk = 1 then .ok (st.addPI ⟨toStr f.text, none⟩, f.after)
      else
        match getUntil [c!" ?>", c!"?>"] f.after with
        | none => .error
        | some g => .ok (st.addPI ⟨toStr f.text, some (toStr g.text)⟩, g.after)

/-- The first half of the loop of `axl_doc_consume_comments`: a comment, if there is one
(src/axl_doc.c:3345-3368). -/
def comment (st : St) (s : List Char) : Res (Bool × St × List Char) :=
  match eat (skip s) c!"<!--" with
  | none => .ok (false, st, skip s)
  | some s =>
    match getUntilRef [c!"-->"] s with
    | (none, _) => .error
    | (some text, s) => .ok (true, st.addLeaf (.comment text), s)

/-- The second half: an instruction, if there is one and the header was read
(src/axl_doc.c:3371-3380). -/
def instruction (header : Bool) (st : St) (s : List Char) : Res (Bool × St × List Char) :=
  if header && peek (skip s) c!"<?" then do
    let (st, s) ← consumePi st (skip s)
    .ok (true, st, s)
  else .ok (false, st, skip s)

/-- `axl_doc_consume_comments` (src/axl_doc.c:3327-3396). -/
def comments (header : Bool) : Nat → St → List Char → Res (St × List Char)
  | 0, _, _ => .loop
  | fuel + 1, st, s => do
    let (found, st, s) ← comment st s
    let (found2, st, s) ← instruction header st s
    if found || found2 then comments header fuel st s else .ok (st, skip s)

/-- The initiator of an attribute value (src/axl_doc.c:959-973): which quote, and the stream after it. -/
def quote (s : List Char) : Option (Char × List Char) :=
  match eat s c!"\"" with
  | some s => some ('"', s)
  | none =>
    match eat s c!"'" with
    | some s => some ('\'', s)
    | none => none

/-- The value of an attribute (src/axl_doc.c:976-980): NULL, without reading, when it is not ended. -/
def attrValue (q : Char) (s : List Char) : Option (List Char) × List Char :=
  match getUntil [[q]] s with
  | none => (none, s)
  | some f => (some (toStr f.text), f.after)

/-- `axl_node_set_attribute_from_factory` on the node at the top (src/axl_doc.c:998), with a value that may be
NULL. -/
def setAttr (o : Open) (name : List Char) (value : Option (List Char)) : Res Open :=
  match value with
  | none => .ok { o with noValue := o.noValue ++ [name] }
  | some v => do
    let attrs ← Res.ofOption (o.attrs.setAttributeFromFactory name v)
    .ok { o with attrs := attrs }

/-- The check for xml:space (src/axl_doc.c:1001-1032). -/
def space (st : St) (name : List Char) (value : Option (List Char)) : Res St :=
  if cmp (some name) (some c!"xml:space") then
    if cmp value (some c!"preserve") then .ok { st with preserve := true :: st.preserve }
    else if cmp value (some c!"default") then .ok { st with preserve := false :: st.preserve }
    else .error
  else .ok st.inherit

/-- One attribute (src/axl_doc.c:933-1037). -/
def attrib (st : St) (s : List Char) : Res (St × List Char) :=
  match getUntil [c!"="] (skip s) with
  | none => .error
  | some f =>
    if toStr f.text = [] then .error
    else
      match quote f.after with
      | none => .error
      | some (q, s) =>
        match st.opened with
        | [] => .ub
        | o :: os => do
          let has ← Res.ofOption (o.attrs.hasAttribute (toStr f.text))
          if has || o.noValue.contains (toStr f.text) then .error
          else do
            let o ← setAttr o (toStr f.text) (attrValue q s).1
            let st ← space { st with opened := o :: os } (toStr f.text) (attrValue q s).1
            .ok (st, skip (attrValue q s).2)

/-- The loop of `__axl_doc_parse_node` when the name ended with a white space (src/axl_doc.c:878-1046): the
state, the rest of the stream and if the node is empty, in which case it was taken from the stack. -/
def attrLoop : Nat → St → List Char → Res (St × List Char × Bool)
  | 0, _, _ => .loop
  | fuel + 1, st, s =>
    match eat s c!"/>" with
    | some s => .ok (st.pop, s, true)
    | none =>
      match eat s c!">" with
      | some s => .ok (st, s, false)
      | none => do
        let (st, s) ← attrib st s
        attrLoop fuel st s

/-- The opening "<", that may be missing unless nothing remains (src/axl_doc.c:790-799). -/
def openAngle (s : List Char) : Option (List Char) :=
  match eat s c!"<" with
  | some s => some s
  | none => if s = [] then none else some s

/-- The loop of `__axl_doc_parse_node` when the name ended with ">" (src/axl_doc.c:878-930): "/>" is looked for
before the ">" already read is taken for the end of the tag. -/
def endOfName (st : St) (s : List Char) : St × List Char × Bool :=
  match eat s c!"/>" with
  | some s => (st.pop, s, true)
  | none => (st, s, false)

/-- The name of a node and its attributes (src/axl_doc.c:812-1046). -/
def parseTag (st : St) (s : List Char) : Res (St × List Char × Bool) :=
  match getUntil [c!">", c!" "] s with
  | none => .error
  | some f =>
    if toStr f.text = [] then .error
    else if f.chunk = 1 then attrLoop ((skip f.after).length + 1) (st.push (toStr f.text)) (skip f.after)
    else if (toStr f.text).getLast? = some '/' then .ok ((st.push (toStr f.text).dropLast).pop, f.after, true)
    else .ok (endOfName (st.push (toStr f.text)) f.after)

/-- `__axl_doc_parse_node` (src/axl_doc.c:772-1050). -/
def parseNode (st : St) (s : List Char) : Res (St × List Char × Bool) := do
  let (st, s) ← comments true (s.length + 1) st s
  match openAngle s with
  | none => .error
  | some s => parseTag st s

/-- The name in a closing tag: one white space at its end is removed (src/axl_doc.c:1072-1075). -/
def closeName (text : List Char) : List Char :=
  match text.getLast? with
  | some c => if isWhite c then toStr text.dropLast else toStr text
  | none => []

/-- `__axl_doc_parse_close_node` (src/axl_doc.c:1057-1110) and the pop after it (src/axl_doc.c:1200-1206). -/
def closeNode (st : St) (s : List Char) : Res (St × List Char) :=
  match getUntilRef [c!">"] s with
  | (none, _) => .error
  | (some text, s) =>
    match st.opened with
    | [] => .error
    | o :: _ =>
      if cmp (some o.name) (some (closeName text)) then .ok ({ st.pop with preserve := st.preserve.tail }, s)
      else .error

/-- A CDATA section (src/axl_doc.c:1220-1244). -/
def cdata (st : St) (s : List Char) : Res (St × List Char) :=
  match getUntil [c!"]]>"] s with
  | none => .error
  | some f => .ok (st.addLeaf (.cdata (toStr f.text)), f.after)

/-- The content of a node (src/axl_doc.c:1269-1287). -/
def content (st : St) (s : List Char) : Res (St × List Char) :=
  match getUntil [c!"<"] s with
  | none => .error
  | some f => .ok (st.addLeaf (.content (toStr f.text)), f.at_)

/-- One pass of the loop of `__axl_doc_parse_common` (src/axl_doc.c:1164-1290): the state, the rest of the
stream and if the loop goes on. -/
def pass (st : St) (s : List Char) : Res (St × List Char × Bool) :=
  let s1 := if st.preserves then s else skip s
  if peek s1 c!"<?" || peek s1 c!"<!--" then do
    let (st, s) ← comments true (s1.length + 1) st s1
    .ok (st, s, true)
  else
    match eat s1 c!"</" with
    | some r => do
      let (st, r) ← closeNode st r
      .ok (st, r, !st.opened.isEmpty)
    | none =>
      match eat s1 c!"<![CDATA[" with
      | some r => do
        let (st, r) ← cdata st r
        .ok (st, r, true)
      | none =>
        match eat s1 c!"<" with
        | some r => do
          let (st, r, _) ← parseNode st r
          .ok (st, r, true)
        | none => do
          let (st, r) ← content st s
          .ok (st, r, true)

/-- The loop of `__axl_doc_parse_common` (src/axl_doc.c:1164-1290). -/
def mainLoop : Nat → St → List Char → Res St
  | 0, _, _ => .loop
  | fuel + 1, st, s =>
    match s with
    | [] => .ok st
    | _ => do
      let (st, s, more) ← pass st s
      if more then mainLoop fuel st s else .ok st

/-- A quoted value in the header, after its first quote (src/axl_doc.c:657-662, 682-687): its bytes. -/
def headerValue (s : List Char) : Option (List Char × List Char) :=
  match getUntil [c!"'", c!"\""] s with
  | none => none
  | some f => some (f.text, f.after)

/-- `memcmp ("yes", string_aux, 3) == 0` (src/axl_doc.c:690): undefined behaviour when the memory, that has the bytes
of the value and a terminator, is shorter. -/
def isYes (v : List Char) : Res Bool :=
  if v.length + 1 < 3 then .ub else .ok (c!"yes".isPrefixOf v)

/-- The encoding in the header (src/axl_doc.c:652-673). -/
def encoding (s : List Char) : Res (Option (List Char) × List Char) :=
  match inspectTwo s c!"encoding=\"" c!"encoding='" with
  | .yes s =>
    match headerValue s with
    | none => .error
    | some (v, s) => .ok (some (toStr v), s)
  | _ => .ok (none, s)

/-- The standalone part of the header (src/axl_doc.c:679-694). -/
def standalone (s : List Char) : Res (Bool × List Char) :=
  match inspectTwo s c!"standalone=\"" c!"standalone='" with
  | .yes s =>
    match headerValue s with
    | none => .error
    | some (v, s) => do
      let b ← isYes v
      .ok (b, s)
  | _ => .ok (false, s)

/-- An `axl_stream_inspect` tested for not being 0 (src/axl_doc.c:632, 642): the stream after the chunk, or
the same stream when it is shorter than the chunk. -/
def notZero (l : Look) (s : List Char) : Option (List Char) :=
  match l with
  | .yes rest => some rest
  | .short => some s
  | .no => none

/-- What is in the header after "<?" (src/axl_doc.c:620-704): encoding, standalone and the stream after it. -/
def xmlDecl (s : List Char) : Res (Option (List Char) × Bool × List Char) :=
  match eat s c!"xml" with
  | none => .error
  | some s =>
    match notZero (inspect (skip s) c!"version=") (skip s) with
    | none => .error
    | some s =>
      match notZero (inspectTwo (skip s) c!"\"1.0\"" c!"'1.0'") (skip s) with
      | none => .error
      | some s => do
        let (enc, s) ← encoding (skip s)
        let (alone, s) ← standalone (skip s)
        match eat (skip s) c!"?>" with
        | none => .error
        | some s => .ok (enc, alone, s)

/-- The document type declaration is skipped up to the first ">" (src/axl_doc.c:718-727). -/
def doctype (st : St) (s : List Char) : Res (St × List Char) :=
  match eat s c!"<!DOCTYPE" with
  | none => .ok (st, s)
  | some s => comments false ((getUntilRef [c!">"] s).2.length + 1) st (getUntilRef [c!">"] s).2

/-- The mark at the beginning (src/axl_doc.c:612-615). -/
def skipBom (s : List Char) : List Char :=
  match eat s ['ï', '»', '¿'] with
  | some s => s
  | none => s

/-- The state of a new document (src/axl_doc.c:438-472). -/
def St.new : St := ⟨[], none, [], [], []⟩

/-- `__axl_doc_parse_xml_header` (src/axl_doc.c:597-731). -/
def parseHeader (s : List Char) : Res (Option (List Char) × Bool × St × List Char) :=
  match notZero (inspect (skipBom s) c!"<?") (skipBom s) with
  | some s => do
    let (enc, alone, s) ← xmlDecl s
    let (st, s) ← comments false (s.length + 1) St.new s
    let (st, s) ← doctype st s
    .ok (enc, alone, st, s)
  | none => do
    let (st, s) ← doctype St.new (skipBom s)
    .ok (none, false, st, s)

/-- The root and all it has (src/axl_doc.c:1155-1291). -/
def body (st : St) (s : List Char) : Res St := do
  let (st, s, empty) ← parseNode st s
  if empty then .ok st else mainLoop (s.length + 1) st s

/-- `__axl_doc_parse_common` (src/axl_doc.c:1118-1317) for a document in memory: `axl_doc_parse`
(src/axl_doc.c:1849).  `.error` is the NULL result with the error filled. -/
def parse (s : List Char) : Res Doc := do
  let (enc, alone, st, s) ← parseHeader s
  let st ← body st s
  if !st.opened.isEmpty then .error
  else
    match st.root with
    | none => .ub
    | some root => .ok ⟨enc, alone, root, st.pis, st.noValue⟩

end Parse
end Axl
