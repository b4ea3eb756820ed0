/-
Model of the memory that `axl_dtd_parse` and `axl_dtd_free` use (src/axl_dtd.c): the parser of `Axl.Dtd` again, with
every block that it allocates, gives to the DTD, leaves to the stream, releases or forgets.

A `World` has one stream and one DTD, those of the parse.  Blocks are named by numbers; `heap` are those not released.
Using or releasing a block that is not there, and any use of a stream or of a DTD already released, is undefined
behaviour.  A structure under construction is a value that names its blocks.

Simplifications: those of `Axl.Dtd` on lists, errors and texts, except that memory is followed and that a declaration is
stored when it is made; an allocation does not fail; an `axlList` and an `axlStack` are one block each, their nodes go
with them; the stream with its buffers is one block, and what it has not read yet is a list (`Model/MemStream` for the
bytes of a stream); the arguments of `axl_log` are not evaluated.
-/
import Verif.Model.DtdParse

namespace Axl
namespace DtdMem
open Str Dtd

/-- A C string in a block. -/
structure Text where
  id   : Nat
  text : List Char
deriving DecidableEq, Repr

/-- `struct _axlStream` (src/axl_stream.c:83-222): its block, what is not read yet, `last_chunk`, `last_near_to`,
`last_get_following`, and if the DTD is in `elements_linked` with `axl_dtd_free`. -/
structure MStream where
  id        : Nat
  rest      : List Char
  last      : Option Nat
  near      : Option Nat
  following : Option Nat
  linked    : Bool
deriving DecidableEq, Repr

/-- `struct _axlDtdElementListNode` (src/axl_dtd.c:44-48): its block, and the name of an element or a nested
`struct _axlDtdElementList` (src/axl_dtd.c:50-83) with its block and that of `itemList`. -/
inductive MPart where
  | node (id : Nat) (times : Times) (name : Text)
  | list (id l : Nat) (kind : Kind) (times : Times) (itemList : Option Nat) (parts : List MPart)

/-- `struct _axlDtdElementList` (src/axl_dtd.c:50-83). -/
structure MContent where
  id       : Nat
  kind     : Kind
  times    : Times
  itemList : Option Nat
  parts    : List MPart

/-- The type of an element with its content model (see `ElementType`). -/
inductive MType where
  | any
  | empty
  | mixed (l : MContent)
  | pcdata (l : MContent)
  | children (l : MContent)
  | unclosed (l : MContent)

/-- `struct _axlDtdElement` (src/axl_dtd.c:85-109). -/
structure MElement where
  id   : Nat
  name : Text
  type : MType

/-- `struct _axlDtdAttributeDecl` (src/axl_dtd.c:111-142).  `enum`: `enumvalues`, the list and its strings. -/
structure MDecl where
  id       : Nat
  name     : Text
  type     : AttType
  enum     : Option (Nat × List Text)
  defaults : Defaults
  value    : Option Text
deriving DecidableEq, Repr

/-- `struct _axlDtdAttribute` (src/axl_dtd.c:144-159); `list` is the block of the list of declarations. -/
structure MAttr where
  id    : Nat
  name  : Text
  list  : Nat
  decls : List MDecl
deriving DecidableEq, Repr

/-- `struct _axlDtdEntity` (src/axl_dtd.c:180-202); `data` is never set. -/
structure MEntity where
  id      : Nat
  type    : EntityType
  name    : Option Text
  content : Option Text
deriving DecidableEq, Repr

/-- `struct _axlDtd` (src/axl_dtd.c:204-240): the lists are NULL until they are needed. -/
structure MDtd where
  id         : Nat
  elements   : Option Nat
  els        : List MElement
  attributes : Option Nat
  atts       : List MAttr
  entities   : Option Nat
  ents       : List MEntity
  root       : Option MElement
  haveId     : Bool
  haveIdRef  : Bool

/-- The memory.  `errors`: the codes of the errors stored where the caller asked for them, `none` when the caller gave
NULL. -/
structure World where
  heap   : List Nat
  next   : Nat
  stream : Option MStream
  dtd    : Option MDtd
  errors : Option (List Int)

/-- The outcome of a C function. -/
inductive Out (α : Type) where
  | ret (a : α) (w : World)
  | ub
  | loop

/-- A C function over the memory. -/
def M (α : Type) : Type := World → Out α

namespace M

protected def pure {α : Type} (a : α) : M α := fun w => .ret a w

protected def bind {α β : Type} (m : M α) (f : α → M β) : M β := fun w =>
  match m w with
  | .ret a w' => f a w'
  | .ub => .ub
  | .loop => .loop

instance : Monad M where
  pure := M.pure
  bind := M.bind

/-- `none` is undefined behaviour. -/
def ofOption {α : Type} : Option α → M α
  | some a => pure a
  | none => fun _ => .ub

end M

/-! ### Blocks -/

/-- `axl_new` (src/axl_decl.h, calloc), `axl_strdup`, `axl_list_new`, `axl_stack_new`. -/
def alloc : M Nat := fun w => .ret w.next { w with heap := w.next :: w.heap, next := w.next + 1 }

/-- `axl_free` of a block that is there. -/
def free (id : Nat) : M Unit := fun w => if id ∈ w.heap then .ret () { w with heap := w.heap.erase id } else .ub

/-- A block is read or written. -/
def use (id : Nat) : M Unit := fun w => if id ∈ w.heap then .ret () w else .ub

/-- `axl_free`, or nothing for NULL. -/
def freeOpt : Option Nat → M Unit
  | some id => free id
  | none => pure ()

/-- The stream, that must not have been released. -/
def getS : M MStream := fun w =>
  match w.stream with
  | some s => .ret s w
  | none => .ub

/-- Updates the stream. -/
def setS (s : MStream) : M Unit := fun w => .ret () { w with stream := some s }

/-- The DTD, that must not have been released. -/
def getD : M MDtd := fun w =>
  match w.dtd with
  | some d => .ret d w
  | none => .ub

/-- Updates the DTD. -/
def setD (d : MDtd) : M Unit := fun w => .ret () { w with dtd := some d }

/-! ### Releasing a DTD -/

/-- `axl_list_free`: the items, then the list; nothing for NULL. -/
def freeList (list : Option Nat) (items : M Unit) : M Unit :=
  match list with
  | none => pure ()
  | some id => do
    items
    free id

/-- The items of a list, in order, each with its destroy function. -/
def freeEach {α : Type} (f : α → M Unit) : List α → M Unit
  | [] => pure ()
  | a :: as => do
    f a
    freeEach f as

mutual
/-- `__destroy_axl_dtd_element_list` (src/axl_dtd.c:297-312) with `axl_dtd_item_list_free` (src/axl_dtd.c:4034-4046). -/
def freePart : MPart → M Unit
  | .node id _ name => do
    free name.id
    free id
  | .list id l _ _ itemList parts => do
    freeList itemList (freeParts parts)
    free l
    free id
/-- The items of an `itemList`. -/
def freeParts : List MPart → M Unit
  | [] => pure ()
  | p :: ps => do
    freePart p
    freeParts ps
end

/-- `axl_dtd_item_list_free` (src/axl_dtd.c:4034-4046). -/
def freeContent (l : MContent) : M Unit := do
  freeList l.itemList (freeParts l.parts)
  free l.id

/-- `element->list`. -/
def MType.list : MType → Option MContent
  | .any => none
  | .empty => none
  | .mixed l => some l
  | .pcdata l => some l
  | .children l => some l
  | .unclosed l => some l

/-- `axl_dtd_element_free` (src/axl_dtd.c:4008-4024). -/
def freeElement (e : MElement) : M Unit := do
  free e.name.id
  match e.type.list with
  | none => pure ()
  | some l => freeContent l
  free e.id

/-- `axl_dtd_attribute_decl_free` (src/axl_dtd.c:1270-1289). -/
def freeDecl (x : MDecl) : M Unit := do
  free x.name.id
  freeOpt (x.value.map (·.id))
  match x.enum with
  | none => pure ()
  | some (l, values) => freeList (some l) (freeEach (fun t => free t.id) values)
  free x.id

/-- `axl_dtd_attribute_free` (src/axl_dtd.c:1296-1304). -/
def freeAttr (a : MAttr) : M Unit := do
  free a.name.id
  freeList (some a.list) (freeEach freeDecl a.decls)
  free a.id

/-- `axl_dtd_entity_free` (src/axl_dtd.c:1701-1736). -/
def freeEntity (e : MEntity) : M Unit := do
  freeOpt (e.name.map (·.id))
  freeOpt (e.content.map (·.id))
  free e.id

/-- The structure of the DTD is not there. -/
def dropDtd : M Unit := fun w => .ret () { w with dtd := none }

/-- `axl_dtd_free` (src/axl_dtd.c:3973-3997). -/
def dtdFree : M Unit := do
  let d ← getD
  freeList d.elements (freeEach freeElement d.els)
  freeList d.entities (freeEach freeEntity d.ents)
  freeList d.attributes (freeEach freeAttr d.atts)
  free d.id
  dropDtd

/-! ### The stream -/

/-- The structure of the stream is not there. -/
def dropStream : M Unit := fun w => .ret () { w with stream := none }

/-- `axl_stream_free` (src/axl_stream.c:1869-1912). -/
def streamFree : M Unit := do
  let s ← getS
  if s.linked then dtdFree else pure ()
  freeOpt s.last
  freeOpt s.near
  freeOpt s.following
  free s.id
  dropStream

/-- `axl_stream_get_following` (src/axl_stream.c:1703-1728). -/
def getFollowing : M Unit := do
  let s ← getS
  if s.rest.isEmpty then pure ()
  else do
    freeOpt s.following
    let id ← alloc
    setS { s with following := some id }

/-- `axl_stream_get_near_to` (src/axl_stream.c:1661-1691). -/
def getNear : M Unit := do
  let s ← getS
  freeOpt s.near
  let id ← alloc
  setS { s with near := some id }

/-- If the caller asked for errors. -/
def asked : M Bool := fun w => .ret w.errors.isSome w

/-- An error is stored (src/axl_error.c:174-175). -/
def putError (code : Int) : M Unit := fun w => .ret () { w with errors := w.errors.map (· ++ [code]) }

/-- `axl_error_new` with a stream (src/axl_error.c:139-177); the error belongs to the caller. -/
def errorNew (code : Int) : M Unit := do
  let ask ← asked
  if ask then do
    getFollowing
    getNear
    putError code
  else pure ()

/-- An error is reported and the stream released: for example src/axl_dtd.c:1177-1178. -/
def fail (code : Int) : M Unit := do
  errorNew code
  streamFree

/-- Releases `last_chunk` and forgets it: `axl_stream_accept` when nothing was peeked (src/axl_stream.c:812-826). -/
def freeLast : M Unit := do
  let s ← getS
  freeOpt s.last
  setS { s with last := none }

/-- `axl_stream_inspect` (src/axl_stream.c:669-675, 616-634), or `axl_stream_peek` and `axl_stream_accept`. -/
def inspect (chunk : List Char) : M Stream.Look := do
  let s ← getS
  match Stream.inspect s.rest chunk with
  | .yes rest => do
    freeLast
    let s ← getS
    setS { s with rest := rest }
    pure (.yes rest)
  | x => pure x

/-- `axl_stream_inspect (stream, chunk, size) > 0`. -/
def eat (chunk : List Char) : M Bool := do
  let a ← inspect chunk
  match a with
  | .yes _ => pure true
  | _ => pure false

/-- `axl_stream_peek (stream, chunk, size) > 0` (src/axl_stream.c:714-720). -/
def peek (chunk : List Char) : M Bool := do
  let s ← getS
  pure (Stream.peek s.rest chunk)

/-- `axl_stream_consume_white_spaces` (src/axl_stream.c:1959-2001). -/
def skip : M Unit := do
  let s ← getS
  setS { s with rest := Stream.skip s.rest }

/-- `axl_stream_get_until` (src/axl_stream.c:994-1014, 1279-1530): the string, that is kept in `last_chunk`, and which
chunk was found. -/
def getUntil (accept : Bool) (chunks : List (List Char)) : M (Option (Text × Nat)) := do
  let s ← getS
  match Stream.getUntil chunks s.rest with
  | none => pure none
  | some f => do
    freeLast
    let id ← alloc
    let s ← getS
    setS { s with rest := if accept then f.after else f.at_, last := some id }
    pure (some (⟨id, toStr f.text⟩, f.chunk))

/-- `axl_stream_get_until_ref` with the terminator accepted (src/axl_stream.c:1071-1094): if it is not NULL. -/
def getUntilRef (chunks : List (List Char)) : M Bool := do
  let s ← getS
  match Stream.getUntil chunks s.rest with
  | none => pure false
  | some f => do
    freeLast
    let s ← getS
    setS { s with rest := f.after }
    pure (!f.text.isEmpty)

/-- `axl_stream_nullify (stream, LAST_CHUNK)` (src/axl_stream.c:1250-1270). -/
def nullify : M Unit := do
  let s ← getS
  setS { s with last := none }

/-- `axl_stream_push` (src/axl_stream.c:837-898). -/
def push (content : List Char) : M Unit := do
  let s ← getS
  setS { s with rest := content ++ s.rest }
  freeLast

/-- `axl_stream_move` (src/axl_stream.c:911-919) to the place where this was left to read. -/
def move (rest : List Char) : M Unit := do
  freeLast
  let s ← getS
  setS { s with rest := rest }

/-! ### Content models -/

/-- `__axl_dtd_get_repetition_conf` (src/axl_dtd.c:634-662). -/
def repetition : M Times := do
  let a ← eat c!"?"
  if a then pure .opt
  else do
    let a ← eat c!"+"
    if a then pure .some1
    else do
      let a ← eat c!"*"
      if a then pure .many else pure .one

/-- `__axl_dtd_element_spec_update_chunk_matched_for_cp_separator` (src/axl_dtd.c:754-781). -/
def separator : M (Option Nat) := do
  skip
  let a ← eat c!","
  if a then pure (some 1)
  else do
    let a ← eat c!"|"
    if a then pure (some 2)
    else do
      let a ← eat c!")"
      if a then pure (some 3) else pure none

/-- `__axl_dtd_element_spec_update_chunk_matched` (src/axl_dtd.c:709-745) with the white spaces before it
(src/axl_dtd.c:946). -/
def afterSpace : M Nat := do
  let a ← separator
  match a with
  | some k => pure k
  | none => do
    let a ← eat c!"+"
    if a then pure 4
    else do
      let a ← eat c!"*"
      if a then pure 5
      else do
        let a ← eat c!"?"
        if a then pure 6 else pure 0

/-- The separator after a list that was closed (src/axl_dtd.c:1023-1033). -/
def closeSep (chunk : Nat) : M Nat := do
  skip
  let a ← eat c!","
  if a then pure 1
  else do
    let a ← eat c!"|"
    if a then pure 2 else pure chunk

/-- `itemList` is created when it is NULL (src/axl_dtd.c:583-586, 690-693). -/
def withList (l : MContent) : M MContent := do
  use l.id
  match l.itemList with
  | some i => do
    use i
    pure l
  | none => do
    let i ← alloc
    pure { l with itemList := some i }

/-- `__axl_dtd_element_content_particule_add` (src/axl_dtd.c:574-619). -/
def particleAdd (l : MContent) (name : Text) (chunk : Nat) : M MContent := do
  let l ← withList l
  let node ← alloc
  pure { l with parts := l.parts ++ [.node node (chunkTimes chunk) name] }

/-- The state of `__axl_dtd_read_element_spec`: `dtd_item_list`; the lists in the stack, each with the node that was
added to it for the list opened in it; the type of the element; and if the repetition of the outermost list was set. -/
structure MReading where
  cur    : MContent
  stack  : List (MContent × Nat)
  sort   : Shape
  closed : Bool

/-- `__axl_dtd_create_and_queue` (src/axl_dtd.c:674-700) after `axl_stack_push` (src/axl_dtd.c:901-904). -/
def openList (r : MReading) : M MReading := do
  let child ← alloc
  let node ← alloc
  let parent ← withList r.cur
  pure { r with cur := ⟨child, .undef, .one, none, []⟩, stack := (parent, node) :: r.stack }

/-- The loop that closes lists (src/axl_dtd.c:1015-1049): the state and `chunk_matched`. -/
def closeLoop : Nat → MReading → Nat → M (MReading × Nat)
  | 0, _, _ => fun _ => .loop
  | fuel + 1, r, chunk => do
    skip
    let times ← repetition
    use r.cur.id
    let chunk ← closeSep chunk
    match r.stack with
    | [] => do
      let r := { r with cur := { r.cur with times := times }, closed := true }
      skip
      let _ ← eat c!")"
      pure (r, chunk)
    | (parent, node) :: stack => do
      let part := MPart.list node r.cur.id r.cur.kind times r.cur.itemList r.cur.parts
      let r := { r with cur := { parent with parts := parent.parts ++ [part] }, stack := stack }
      skip
      let a ← eat c!")"
      if a then closeLoop fuel r chunk else pure (r, chunk)

/-- The type of the element after a particle (src/axl_dtd.c:1006-1011). -/
def sortAfter (r : MReading) (name : List Char) (chunk : Nat) (l : MContent) : Shape :=
  if chunk = 3 && cmp (some name) (some c!"#PCDATA") then
    if l.parts.length = 1 then .pcdata else .mixed
  else r.sort

/-- An error while a content model is read: the stack and the stream are released, the element is not
(src/axl_dtd.c:881-885, 805-809, 971-975, 984-988, 994-998). -/
def specFail {α : Type} (stack : Nat) : M (Option α) := do
  errorNew (-1)
  free stack
  streamFree
  pure none

/-- The delimiter of a particle: one after the space counts (src/axl_dtd.c:939-960). -/
def delimiter (chunk : Nat) : M Nat := if chunk = 0 then afterSpace else pure chunk

/-- The separator after a repetition (src/axl_dtd.c:968-977). -/
def afterTimes (chunk : Nat) : M (Option Nat) :=
  if chunk = 4 || chunk = 5 || chunk = 6 then separator else pure (some chunk)

/-- The loop of `__axl_dtd_read_element_spec` (src/axl_dtd.c:888-1058) with `__axl_dtd_read_content_particule`
(src/axl_dtd.c:788-827). -/
def specLoop (stack : Nat) : Nat → MReading → M (Option MReading)
  | 0, _ => fun _ => .loop
  | fuel + 1, r => do
    skip
    let a ← eat c!"("
    if a then do
      use stack
      let r ← openList r
      specLoop stack fuel r
    else do
      let found ← getUntil true delimiters
      match found with
      | none => specFail stack
      | some (name, chunk) => do
        nullify
        let chunk ← delimiter chunk
        let l ← particleAdd r.cur name chunk
        let sep ← afterTimes chunk
        match sep with
        | none => specFail stack
        | some chunk =>
          match kindAfter l.kind chunk with
          | none => specFail stack
          | some kind => do
            let r := { r with cur := { l with kind := kind }, sort := sortAfter r name.text chunk l }
            if chunk = 3 then do
              let s ← getS
              let (r, chunk) ← closeLoop (s.rest.length + 1) r chunk
              use stack
              if chunk ≠ 3 || !r.stack.isEmpty then specLoop stack fuel r else pure (some r)
            else specLoop stack fuel r

/-- The type of the element once its content was read (src/axl_dtd.c:1070-1071). -/
def MReading.type (r : MReading) : MType :=
  let l : MContent := { r.cur with kind := if r.cur.kind = .undef then .seq else r.cur.kind }
  match r.sort with
  | .pcdata => .pcdata l
  | .mixed => .mixed l
  | .children => if r.closed then .children l else .unclosed l

/-- `__axl_dtd_read_element_spec` (src/axl_dtd.c:846-1082). -/
def readSpec : M (Option MType) := do
  let stack ← alloc
  let l ← alloc
  skip
  let a ← inspect c!"("
  match a with
  | .no => specFail stack
  | _ => do
    let s ← getS
    let r ← specLoop stack (s.rest.length + 1) ⟨⟨l, .undef, .one, none, []⟩, [], .children, false⟩
    match r with
    | none => pure none
    | some r => do
      free stack
      pure (some r.type)

/-- The content specification of an element (src/axl_dtd.c:1207-1236). -/
def elementType : M (Option MType) := do
  skip
  let a ← eat c!"EMPTY"
  if a then pure (some .empty)
  else do
    let a ← eat c!"ANY"
    if a then pure (some .any) else readSpec

/-- The loop of `__axl_dtd_add_element` (src/axl_dtd.c:539-553): is there an element with that name? -/
def repeated (name : Text) : List MElement → M Bool
  | [] => pure false
  | e :: es => do
    use e.id
    use e.name.id
    use name.id
    if cmp (some e.name.text) (some name.text) then pure true else repeated name es

/-- A list of the DTD is created if it is NULL (src/axl_dtd.c:1169-1170, 1460-1461, 1751-1752). -/
def elementsList : M Unit := do
  let d ← getD
  use d.id
  match d.elements with
  | some _ => pure ()
  | none => do
    let l ← alloc
    setD { d with elements := some l }

/-- The end of an element declaration (src/axl_dtd.c:1238-1250): it is stored and its terminator read. -/
def elementEnd (e : MElement) : M Bool := do
  let d ← getD
  let twice ← repeated e.name d.els
  if twice then do
    fail (-1)
    pure false
  else do
    setD { d with els := d.els ++ [e] }
    skip
    let a ← inspect c!">"
    match a with
    | .no => do
      fail (-1)
      pure false
    | _ => pure true

/-- `__axl_dtd_parse_element` (src/axl_dtd.c:1162-1261) with `__axl_dtd_add_element` (src/axl_dtd.c:531-558). -/
def parseElement : M Bool := do
  elementsList
  skip
  let a ← eat c!"<!ELEMENT"
  if a then do
    skip
    let found ← getUntil false [c!">", c!"(", c!" "]
    match found with
    | none => do
      fail (-1)
      pure false
    | some (name, chunk) =>
      if chunk = 0 then do
        fail (-1)
        pure false
      else do
        nullify
        let element ← alloc
        let type ← elementType
        match type with
        | none => pure false
        | some type => elementEnd ⟨element, name, type⟩
  else do
    fail (-1)
    pure false

/-! ### Attributes -/

/-- The list of attributes is created if it is NULL (src/axl_dtd.c:1460-1461). -/
def attributesList : M Unit := do
  let d ← getD
  use d.id
  match d.attributes with
  | some _ => pure ()
  | none => do
    let l ← alloc
    setD { d with attributes := some l }

/-- `axl_dtd_get_attr` (src/axl_dtd.c:3587-3595): where the declarations of an element are. -/
def findAttr (name : Text) : List MAttr → Nat → M (Option Nat)
  | [], _ => pure none
  | a :: as, i => do
    use a.id
    use a.name.id
    use name.id
    if a.name.text == name.text then pure (some i) else findAttr name as (i + 1)

/-- The declarations of an element, created when there are none (src/axl_dtd.c:1476-1493). -/
def attrHolder (name : Text) : M Nat := do
  let d ← getD
  let found ← findAttr name d.atts 0
  match found with
  | some i => pure i
  | none => do
    let a ← alloc
    nullify
    let l ← alloc
    let d ← getD
    setD { d with atts := d.atts ++ [⟨a, name, l, []⟩] }
    pure d.atts.length

/-- Updates the declarations at a place. -/
def MDtd.modAttr (d : MDtd) (i : Nat) (f : List MDecl → List MDecl) : MDtd :=
  { d with atts := d.atts.modify i fun a => { a with decls := f a.decls } }

/-- A declaration is added to a list (src/axl_dtd.c:1518-1522). -/
def addDecl (i : Nat) (x : MDecl) : M Unit := do
  let d ← getD
  match d.atts[i]? with
  | none => fun _ => .ub
  | some a => do
    use a.list
    setD (d.modAttr i (· ++ [x]))

/-- The declaration being read, the last of its list, is changed. -/
def setDecl (i : Nat) (x : MDecl) : M Unit := do
  use x.id
  let d ← getD
  setD (d.modAttr i fun xs => xs.dropLast ++ [x])

/-- `axl_dtd_entity_value` (src/axl_dtd.c:3952-3966), `__axl_dtd_entity_lookup` (src/axl_dtd.c:3885-3914). -/
def entityValue (name : Text) (type : EntityType) : List MEntity → M (Option (List Char))
  | [] => pure none
  | e :: es => do
    use e.id
    if e.type = type then
      match e.name with
      | none => entityValue name type es
      | some n => do
        use n.id
        use name.id
        if cmp (some n.text) (some name.text) then
          match e.content with
          | none => pure none
          | some c => do
            use c.id
            pure (some c.text)
        else entityValue name type es
    else entityValue name type es

/-- `axl_dtd_check_entity_ref_and_expand` (src/axl_dtd.c:1347-1391) with the prefix "%". -/
def expand : M Bool := do
  let s ← getS
  let a ← eat c!"%"
  if a then do
    let found ← getUntil true [c!";"]
    match found with
    | none => do
      fail (-1)
      pure false
    | some (name, _) => do
      let d ← getD
      let value ← entityValue name .parameter d.ents
      match value with
      | none => do
        move s.rest
        pure true
      | some v => do
        freeLast
        let copy ← alloc
        push (v ++ [' '])
        free copy
        pure true
  else pure true

/-- The pieces of `axl_stream_split`, a block each. -/
def allocEach : List (List Char) → M (List Text)
  | [] => pure []
  | t :: ts => do
    let id ← alloc
    let rest ← allocEach ts
    pure (⟨id, t⟩ :: rest)

/-- The loop of `__axl_dtd_parse_enumvalues` (src/axl_dtd.c:1413-1423): the copies. -/
def copyEach : List Text → M (List Text)
  | [] => pure []
  | t :: ts => do
    use t.id
    let v ← M.ofOption (trimmed t.text)
    let id ← alloc
    let rest ← copyEach ts
    pure (⟨id, v⟩ :: rest)

/-- `__axl_dtd_parse_enumvalues` (src/axl_dtd.c:1402-1430): the list and its strings. -/
def enumValues (values : Text) : M (Nat × List Text) := do
  use values.id
  let pieces ← M.ofOption (split values.text [c!"|"])
  let array ← alloc
  let pieces ← allocEach pieces
  let list ← alloc
  let copies ← copyEach pieces
  freeEach (fun t => free t.id) pieces
  free array
  pure (list, copies)

/-- The first word that the stream begins with. -/
def word : List (List Char × AttType) → M (Option AttType)
  | [] => pure none
  | (w, t) :: ws => do
    let a ← eat w
    if a then pure (some t) else word ws

/-- The type of an attribute (src/axl_dtd.c:1539-1591), stored in the declaration. -/
def attType (x : MDecl) : M (Option MDecl) := do
  let a ← eat c!"NOTATION"
  if a then pure (some x)
  else do
    let a ← eat c!"("
    if a then do
      let found ← getUntil true [c!")"]
      match found with
      | none => do
        fail (-1)
        pure none
      | some (values, _) => do
        let e ← enumValues values
        pure (some { x with enum := some e })
    else do
      let t ← word typeWords
      match t with
      | none => do
        fail (-1)
        pure none
      | some t => pure (some { x with type := t })

/-- The marks of the DTD (src/axl_dtd.c:1562, 1568, 1576). -/
def MDtd.mark (d : MDtd) (t : AttType) : MDtd :=
  match t with
  | .id => { d with haveId := true }
  | .idref => { d with haveIdRef := true }
  | .idrefs => { d with haveIdRef := true }
  | _ => d

/-- The mark of a value that cannot change (src/axl_dtd.c:1605-1611). -/
def attFixed : M Defaults := do
  let a ← eat c!"#FIXED"
  if a then do
    skip
    pure .fixed
  else pure .implied

/-- An error with a message that is built for it (src/axl_dtd.c:1616-1621, 1633-1638, 1643-1648). -/
def failWith (x : MDecl) (a : MAttr) : M Unit := do
  use x.name.id
  use a.name.id
  let msg ← alloc
  errorNew (-1)
  streamFree
  free msg

/-- The default declaration (src/axl_dtd.c:1599-1623): `none` when there is none. -/
def attDefault : M (Option Defaults) := do
  let a ← eat c!"#REQUIRED"
  if a then pure (some .required)
  else do
    let a ← eat c!"#IMPLIED"
    if a then pure (some .implied)
    else do
      let defaults ← attFixed
      let a ← peek c!"\""
      let b ← peek c!"'"
      if a || b then pure (some defaults) else pure none

/-- `__find_id_decl` for `axl_list_lookup` (src/axl_dtd.c:1436-1441, 1631). -/
def findId : List MDecl → M (Option MDecl)
  | [] => pure none
  | x :: xs => do
    use x.id
    if x.enum.isNone && x.type = .id then pure (some x) else findId xs

/-- The checks of an ID declaration (src/axl_dtd.c:1625-1650). -/
def idFine (a : MAttr) (x : MDecl) : M Bool := do
  if x.enum.isNone && x.type = .id then do
    let first ← findId a.decls
    match first with
    | some y => do
      use y.name.id
      use x.name.id
      if cmp (some y.name.text) (some x.name.text) then pure (decide (x.defaults = .required) || decide (x.defaults = .implied))
      else pure false
    | none => pure (decide (x.defaults = .required) || decide (x.defaults = .implied))
  else pure true

/-- The initiator of a value (src/axl_dtd.c:1657-1660, 1809-1810). -/
def quote : M (Option Char) := do
  let a ← eat c!"\""
  if a then pure (some '"')
  else do
    let a ← eat c!"'"
    if a then pure (some '\'') else pure none

/-- The default value (src/axl_dtd.c:1655-1663), still kept by the stream. -/
def attValue : M (Option Text) := do
  let q ← quote
  match q with
  | none => pure none
  | some q => do
    let found ← getUntil true [[q]]
    match found with
    | none => pure none
    | some (t, _) => pure (some t)

/-- `axl_list_find_string` for `axl_list_lookup` (src/axl_dtd.c:1672, src/axl_list.c:1534-1546). -/
def anyText (v : Text) : List Text → M Bool
  | [] => pure false
  | t :: ts => do
    use t.id
    use v.id
    if cmp (some t.text) (some v.text) then pure true else anyText v ts

/-- A default value of an enumeration is one of its values (src/axl_dtd.c:1671-1679). -/
def valueFine (x : MDecl) (v : Text) : M Bool :=
  match x.enum with
  | none => pure true
  | some (l, values) => do
    use l
    anyText v values

/-- The default value is checked and stored (src/axl_dtd.c:1665-1686). -/
def storeValue (i : Nat) (x : MDecl) (value : Option Text) : M Bool := do
  match value with
  | none => pure true
  | some v => do
    let fine ← valueFine x v
    if fine then do
      nullify
      setDecl i { x with value := some v }
      pure true
    else do
      fail (-1)
      pure false

/-- The rest of a declaration, from its type on (src/axl_dtd.c:1593-1686). -/
def declRest (i : Nat) (x : MDecl) : M Bool := do
  skip
  let defaults ← attDefault
  let d ← getD
  match d.atts[i]? with
  | none => fun _ => .ub
  | some a =>
    match defaults with
    | none => do
      failWith x a
      pure false
    | some defaults => do
      let x := { x with defaults := defaults }
      setDecl i x
      let d ← getD
      match d.atts[i]? with
      | none => fun _ => .ub
      | some a => do
        let fine ← idFine a x
        if fine then do
          skip
          let value ← attValue
          storeValue i x value
        else do
          failWith x a
          pure false

/-- The loop of `__axl_dtd_parse_attlist` (src/axl_dtd.c:1496-1688). -/
def attlistLoop (i : Nat) : Nat → M Bool
  | 0 => fun _ => .loop
  | fuel + 1 => do
    skip
    let a ← eat c!">"
    if a then pure true
    else do
      let found ← getUntil false [c!" "]
      match found with
      | none => do
        fail (-1)
        pure false
      | some (name, _) => do
        nullify
        let id ← alloc
        let x : MDecl := ⟨id, name, .cdata, none, .required, none⟩
        addDecl i x
        skip
        let ok ← expand
        if ok then do
          let t ← attType x
          match t with
          | none => pure false
          | some x => do
            setDecl i x
            let d ← getD
            setD (if x.enum.isNone then d.mark x.type else d)
            let ok ← declRest i x
            if ok then attlistLoop i fuel else pure false
        else pure false

/-- `__axl_dtd_parse_attlist` (src/axl_dtd.c:1450-1692), called after "<!ATTLIST". -/
def parseAttlist (fuel : Nat) : M Bool := do
  attributesList
  skip
  let found ← getUntil false [c!" "]
  match found with
  | none => do
    fail (-1)
    pure false
  | some (name, _) => do
    let i ← attrHolder name
    attlistLoop i fuel

/-! ### Entities -/

/-- The list of entities is created if it is NULL (src/axl_dtd.c:1751-1752). -/
def entitiesList : M Unit := do
  let d ← getD
  use d.id
  match d.entities with
  | some _ => pure ()
  | none => do
    let l ← alloc
    setD { d with entities := some l }

/-- The entity being read, the last of its list, is changed. -/
def setEntity (e : MEntity) : M Unit := do
  use e.id
  let d ← getD
  setD { d with ents := d.ents.dropLast ++ [e] }

/-- The type of an entity (src/axl_dtd.c:1773-1782). -/
def entityType : M EntityType := do
  let a ← eat c!"%"
  if a then do
    skip
    pure .parameter
  else pure .general

/-- The value of an entity (src/axl_dtd.c:1799-1832), stored in it. -/
def entityContent (e : MEntity) : M Bool := do
  let a ← eat c!"PUBLIC"
  if a then pure true
  else do
    let a ← eat c!"SYSTEM"
    if a then pure true
    else do
      let q ← quote
      match q with
      | none => do
        fail (-2)
        pure false
      | some q => do
        let found ← getUntil true [[q]]
        nullify
        setEntity { e with content := found.map (·.1) }
        pure true

/-- `__axl_dtd_parse_entity` (src/axl_dtd.c:1744-1846). -/
def parseEntity : M Bool := do
  entitiesList
  skip
  let a ← eat c!"<!ENTITY"
  if a then do
    skip
    let id ← alloc
    let d ← getD
    setD { d with ents := d.ents ++ [⟨id, .general, none, none⟩] }
    let type ← entityType
    let found ← getUntil false [c!" "]
    match found with
    | none => do
      fail (-1)
      pure false
    | some (name, _) => do
      nullify
      let e : MEntity := ⟨id, type, some name, none⟩
      setEntity e
      skip
      let ok ← entityContent e
      if ok then do
        skip
        let a ← eat c!">"
        if a then pure true
        else do
          fail (-2)
          pure false
      else pure false
  else do
    fail (-1)
    pure false

/-! ### The root -/

/-- The loop of `__axl_dtd_get_is_parent` (src/axl_dtd.c:427-458): the stack, the top first. -/
def isParentLoop (name : Text) : Nat → List MPart → M Bool
  | 0, _ => fun _ => .loop
  | _ + 1, [] => fun _ => .ub
  | fuel + 1, .node id _ n :: stack => do
    use id
    use n.id
    use name.id
    if cmp (some n.text) (some name.text) then pure true
    else if stack.isEmpty then pure false else isParentLoop name fuel stack
  | fuel + 1, .list id l _ _ itemList parts :: stack => do
    use id
    use l
    match itemList with
    | none => pure ()
    | some i => use i
    if (parts.reverse ++ stack).isEmpty then pure false else isParentLoop name fuel (parts.reverse ++ stack)

mutual
/-- How many items there are in a content model, at every level. -/
def MPart.count : MPart → Nat
  | .node _ _ _ => 1
  | .list _ _ _ _ _ parts => countAll parts + 1
def countAll : List MPart → Nat
  | [] => 0
  | p :: ps => p.count + countAll ps
end

/-- `__axl_dtd_get_is_parent` (src/axl_dtd.c:403-465). -/
def isParent (parent child : MElement) : M Bool := do
  use parent.id
  use child.id
  match parent.type.list with
  | none => pure false
  | some l => do
    use l.id
    match l.itemList with
    | none => pure false
    | some i => do
      let stack ← alloc
      use i
      let a ← isParentLoop child.name (countAll l.parts + 1) l.parts.reverse
      free stack
      pure a

/-- The inner loop of `__axl_dtd_get_new_root` (src/axl_dtd.c:489-505). -/
def rootRound : List MElement → MElement → Bool → M (MElement × Bool)
  | [], root, changed => pure (root, changed)
  | e :: es, root, changed => do
    let a ← isParent e root
    if a then rootRound es e true else rootRound es root changed

/-- The outer loop of `__axl_dtd_get_new_root` (src/axl_dtd.c:485-506). -/
def newRoot (elements : List MElement) : Nat → MElement → M MElement
  | 0, _ => fun _ => .loop
  | fuel + 1, root => do
    let (root, changed) ← rootRound elements root false
    if changed then newRoot elements fuel root else pure root

/-! ### The whole -/

/-- The loop of `axl_doc_consume_comments (NULL, …)` (src/axl_dtd.c:1873, src/axl_doc.c:3327-3396). -/
def comments : Nat → M Bool
  | 0 => fun _ => .loop
  | fuel + 1 => do
    skip
    let a ← eat c!"<!--"
    if a then do
      let found ← getUntilRef [c!"-->"]
      if found then do
        skip
        comments fuel
      else do
        fail (-1)
        pure false
    else do
      skip
      pure true

/-- One declaration (src/axl_dtd.c:1876-1907): `none` if there is none. -/
def declaration (fuel : Nat) : M (Option Bool) := do
  let a ← peek c!"<!ELEMENT"
  if a then do
    let ok ← parseElement
    pure (some ok)
  else do
    let a ← eat c!"<!ATTLIST"
    if a then do
      let ok ← parseAttlist fuel
      pure (some ok)
    else do
      let a ← peek c!"<!ENTITY"
      if a then do
        let ok ← parseEntity
        pure (some ok)
      else pure none

/-- The loop of `__axl_dtd_parse_common` (src/axl_dtd.c:1870-1916). -/
def parseLoop (fuel : Nat) : Nat → Nat → M Bool
  | 0, _ => fun _ => .loop
  | k + 1, iterator => do
    let s ← getS
    if s.rest.isEmpty then pure true
    else do
      let ok ← comments (s.rest.length + 1)
      if ok then do
        let a ← declaration fuel
        match a with
        | some ok => if ok then parseLoop fuel k iterator else pure false
        | none =>
          if iterator = 3 then do
            fail (-1)
            pure false
          else parseLoop fuel k (iterator + 1)
      else pure false

/-- The root is chosen (src/axl_dtd.c:1921-1924). -/
def chooseRoot (fuel : Nat) : M Unit := do
  let d ← getD
  match d.elements with
  | none => pure ()
  | some l => do
    use l
    match d.els with
    | [] => pure ()
    | e :: _ => do
      let root ← newRoot d.els fuel e
      setD { d with root := some root }

/-- The end of `__axl_dtd_parse_common` (src/axl_dtd.c:1921-1938). -/
def conclude (fuel : Nat) : M Bool := do
  chooseRoot fuel
  let d ← getD
  use d.id
  if !d.haveId && d.haveIdRef then do
    fail (-1)
    pure false
  else do
    let s ← getS
    setS { s with linked := false }
    streamFree
    pure true

/-- `axl_stream_new` (src/axl_stream.c:561-594), `__axl_dtd_new` (src/axl_dtd.c:323-332) and `axl_stream_link`
(src/axl_dtd.c:1864-1868). -/
def begin_ (text : List Char) : M Unit := do
  let s ← alloc
  let d ← alloc
  setD ⟨d, none, [], none, [], none, [], none, false, false⟩
  setS ⟨s, text, none, none, none, true⟩

/-- `axl_dtd_parse` (src/axl_dtd.c:1957-1963), `__axl_dtd_parse_common` (src/axl_dtd.c:1855-1939): if it returns a
DTD. -/
def parse (fuel : Nat) (text : List Char) : M Bool := do
  begin_ text
  let ok ← parseLoop fuel (fuel + 5) 0
  if ok then conclude fuel else pure false

/-- The memory before the parse.  `ask`: the caller gives a place for the error. -/
def World.start (ask : Bool) : World := ⟨[], 0, none, none, if ask then some [] else none⟩

end DtdMem
end Axl
