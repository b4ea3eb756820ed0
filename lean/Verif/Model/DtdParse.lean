/-
Model of the parser of DTDs (src/axl_dtd.c): `axl_dtd_parse` for a text in memory.

Simplifications: a list of declarations is a list (C01), a stack is a list with the top first (C07); a nested content
model is linked to the list that holds it when it is closed instead of when it is opened (nothing else is added to
that list in between, and a parse that fails gives no DTD); the attribute declarations of an ATTLIST are stored when
it ends, for the same reasons; error messages are not built and memory freed is not followed.
-/
import Verif.Model.Dtd

namespace Axl.Dtd
open Str Stream

/-! ### Content models -/

/-- `__axl_dtd_get_repetition_conf` (src/axl_dtd.c:634-662). -/
def repetition (s : List Char) : Times × List Char :=
  match eat s c!"?" with
  | some s => (.opt, s)
  | none =>
    match eat s c!"+" with
    | some s => (.some1, s)
    | none =>
      match eat s c!"*" with
      | some s => (.many, s)
      | none => (.one, s)

/-- `__axl_dtd_element_spec_update_chunk_matched_for_cp_separator` (src/axl_dtd.c:754-781): which separator is there
(1: ",", 2: "|", 3: ")"). -/
def separator (s : List Char) : Option (Nat × List Char) :=
  match eat (skip s) c!"," with
  | some s => some (1, s)
  | none =>
    match eat (skip s) c!"|" with
    | some s => some (2, s)
    | none =>
      match eat (skip s) c!")" with
      | some s => some (3, s)
      | none => none

/-- `__axl_dtd_element_spec_update_chunk_matched` (src/axl_dtd.c:709-745) with the white spaces before it
(src/axl_dtd.c:946): the chunk stays 0 if none is there. -/
def afterSpace (s : List Char) : Nat × List Char :=
  match separator s with
  | some r => r
  | none =>
    match eat (skip s) c!"+" with
    | some s => (4, s)
    | none =>
      match eat (skip s) c!"*" with
      | some s => (5, s)
      | none =>
        match eat (skip s) c!"?" with
        | some s => (6, s)
        | none => (0, skip s)

/-- The delimiters of `__axl_dtd_read_content_particule` (src/axl_dtd.c:797-803).  The check for the last one
compares with 8 (src/axl_dtd.c:814) though its position is 7, so it never reports an error. -/
def delimiters : List (List Char) := [c!" ", c!",", c!"|", c!")", c!"+", c!"*", c!"?", c!"("]

/-- The repetition given to a content particle (src/axl_dtd.c:595-615). -/
def chunkTimes (chunk : Nat) : Times :=
  if chunk = 4 then .some1 else if chunk = 5 then .many else if chunk = 6 then .opt else .one

/-- The type of the list after a separator (src/axl_dtd.c:981-1002): none for an error. -/
def kindAfter (k : Kind) (chunk : Nat) : Option Kind :=
  if chunk = 1 then if k = .choice then none else some .seq
  else if chunk = 2 then if k = .seq then none else some .choice
  else some k

/-- The type that the content gives to the element (src/axl_dtd.c:1233, 1006-1011). -/
inductive Shape where
  | children
  | pcdata
  | mixed
deriving DecidableEq, Repr

/-- The state of `__axl_dtd_read_element_spec`: `dtd_item_list`, the stack, the type of the element and whether the
repetition of the outermost list was set. -/
structure Reading where
  cur    : Content
  stack  : List Content
  sort   : Shape
  closed : Bool

/-- The separator after a list that was closed (src/axl_dtd.c:1023-1033). -/
def closeSep (chunk : Nat) (s : List Char) : Nat × List Char :=
  match eat (skip s) c!"," with
  | some s => (1, s)
  | none =>
    match eat (skip s) c!"|" with
    | some s => (2, s)
    | none => (chunk, skip s)

/-- The loop that closes lists (src/axl_dtd.c:1015-1049): the state, `chunk_matched` and the stream. -/
def closeLoop : Nat → Reading → Nat → List Char → Res (Reading × Nat × List Char)
  | 0, _, _, _ => .loop
  | fuel + 1, r, chunk, s =>
    let (times, s) := repetition (skip s)
    let (chunk, s) := closeSep chunk s
    match r.stack with
    | [] =>
      let r := { r with cur := { r.cur with times := times }, closed := true }
      match eat (skip s) c!")" with
      | some s => .ok (r, chunk, s)
      | none => .ok (r, chunk, skip s)
    | parent :: stack =>
      let r := { r with cur := { parent with items := parent.items ++ [.list r.cur.kind times r.cur.items] }, stack := stack }
      match eat (skip s) c!")" with
      | some s => closeLoop fuel r chunk s
      | none => .ok (r, chunk, skip s)

/-- The type of the element after a particle (src/axl_dtd.c:1006-1011). -/
def sortAfter (r : Reading) (name : List Char) (chunk : Nat) (items : List Part) : Shape :=
  if chunk = 3 && cmp (some name) (some c!"#PCDATA") then
    if items.length = 1 then .pcdata else .mixed
  else r.sort

/-- The loop of `__axl_dtd_read_element_spec` (src/axl_dtd.c:888-1058). -/
def specLoop : Nat → Reading → List Char → Res (Reading × List Char)
  | 0, _, _ => .loop
  | fuel + 1, r, s =>
    match eat (skip s) c!"(" with
    | some s => specLoop fuel { r with cur := ⟨.undef, .one, []⟩, stack := r.cur :: r.stack } s
    | none =>
      match getUntil delimiters (skip s) with
      | none => .error
      | some f =>
        let (chunk, s) := if f.chunk = 0 then afterSpace f.after else (f.chunk, f.after)
        let items := r.cur.items ++ [.node (chunkTimes chunk) (toStr f.text)]
        match if chunk = 4 || chunk = 5 || chunk = 6 then separator s else some (chunk, s) with
        | none => .error
        | some (chunk, s) =>
          match kindAfter r.cur.kind chunk with
          | none => .error
          | some kind =>
            let r := { r with cur := { r.cur with kind := kind, items := items }, sort := sortAfter r (toStr f.text) chunk items }
            if chunk = 3 then
              match closeLoop (s.length + 1) r chunk s with
              | .ok (r, chunk, s) => if chunk ≠ 3 || !r.stack.isEmpty then specLoop fuel r s else .ok (r, s)
              | .error => .error
              | .ub => .ub
              | .loop => .loop
            else specLoop fuel r s

/-- The type of the element once its content was read (src/axl_dtd.c:1070-1071). -/
def Reading.type (r : Reading) : ElementType :=
  let l : Content := { r.cur with kind := if r.cur.kind = .undef then .seq else r.cur.kind }
  match r.sort with
  | .pcdata => .pcdata l
  | .mixed => .mixed l
  | .children => if r.closed then .children l else .unclosed l

/-- `__axl_dtd_read_element_spec` (src/axl_dtd.c:846-1082).  The answer of the first check is not compared with 0: at
the end of the stream it is -1 and passes. -/
def readSpec (s : List Char) : Res (ElementType × List Char) :=
  match inspect (skip s) c!"(" with
  | .no => .error
  | .short => .error  -- nothing is left, and the loop that follows finds no particle (src/axl_dtd.c:804-810)
  | .yes s =>
    match specLoop (s.length + 1) ⟨⟨.undef, .one, []⟩, [], .children, false⟩ s with
    | .ok (r, s) => .ok (r.type, s)
    | .error => .error
    | .ub => .ub
    | .loop => .loop

/-- The content specification of an element (src/axl_dtd.c:1207-1236). -/
def elementType (s : List Char) : Res (ElementType × List Char) :=
  match eat (skip s) c!"EMPTY" with
  | some s => .ok (.empty, s)
  | none =>
    match eat (skip s) c!"ANY" with
    | some s => .ok (.any, s)
    | none => readSpec (skip s)

/-- The terminator of an element declaration (src/axl_dtd.c:1242-1250): here too -1 passes. -/
def elementEnd (s : List Char) : Option (List Char) :=
  match inspect (skip s) c!">" with
  | .no => none
  | .short => some (skip s)
  | .yes s => some s

/-- `__axl_dtd_parse_element` (src/axl_dtd.c:1162-1261) with `__axl_dtd_add_element` (src/axl_dtd.c:531-558). -/
def parseElement (d : Dtd) (s : List Char) : Res (Dtd × List Char) :=
  match eat (skip s) c!"<!ELEMENT" with
  | none => .error
  | some s =>
    match getUntil [c!">", c!"(", c!" "] (skip s) with
    | none => .error
    | some f =>
      if f.chunk = 0 then .error
      else
        match elementType f.at_ with
        | .ok (type, s) =>
          if d.elements.any fun e => cmp (some e.name) (some (toStr f.text)) then .error
          else
            match elementEnd s with
            | none => .error
            | some s => .ok ({ d with elements := d.elements ++ [⟨toStr f.text, type⟩] }, s)
        | .error => .error
        | .ub => .ub
        | .loop => .loop

/-! ### Attributes -/

/-- `axl_dtd_entity_value` (src/axl_dtd.c:3952-3966), `__axl_dtd_entity_lookup` (src/axl_dtd.c:3885-3914). -/
def Dtd.entity (d : Dtd) (name : List Char) (type : EntityType) : Option Entity :=
  d.entities.find? fun e => decide (e.type = type) && cmp (some e.name) (some name)

/-- `axl_dtd_entity_value` (src/axl_dtd.c:3952-3966). -/
def Dtd.entityValue (d : Dtd) (name : List Char) (type : EntityType) : Option (List Char) :=
  (d.entity name type).bind (·.content)

/-- `axl_dtd_check_entity_ref_and_expand` (src/axl_dtd.c:1347-1391) with the prefix "%": the value is put before the rest
of the stream (`axl_stream_push`, src/axl_stream.c:837-898), or the stream goes back to the reference
(`axl_stream_move`). -/
def expand (d : Dtd) (s : List Char) : Res (List Char) :=
  match eat s c!"%" with
  | none => .ok s
  | some r =>
    match getUntil [c!";"] r with
    | none => .error
    | some f =>
      match d.entityValue (toStr f.text) .parameter with
      | none => .ok s
      | some v => .ok (v ++ ' ' :: f.after)

/-- `axl_stream_trim` of a string (src/axl_dtd.c:1415). -/
def trimmed (s : List Char) : Option (List Char) := (trimWithSize (s ++ [NUL])).map fun r => toStr r.1

/-- `__axl_dtd_parse_enumvalues` (src/axl_dtd.c:1402-1430). -/
def enumValues (s : List Char) : Option (List (List Char)) := (split s [c!"|"]).bind fun ps => ps.mapM trimmed

/-- A key word and the type that it gives to the attribute (src/axl_dtd.c:1553-1591).  ENTITY is tried before
ENTITIES, which has another letter at its end and is found all the same. -/
def typeWords : List (List Char × AttType) :=
  [(c!"CDATA", .cdata), (c!"IDREFS", .idrefs), (c!"IDREF", .idref), (c!"ID", .id), (c!"ENTITY", .entity),
   (c!"ENTITIES", .entities), (c!"NMTOKENS", .nmtokens), (c!"NMTOKEN", .nmtoken)]

/-- The first word that the stream begins with. -/
def word (s : List Char) : List (List Char × AttType) → Option (AttType × List Char)
  | [] => none
  | (w, t) :: ws =>
    match eat s w with
    | some s => some (t, s)
    | none => word s ws

/-- The type of an attribute (src/axl_dtd.c:1539-1591).  NOTATION leaves the type that a new declaration has, the one
of CDATA. -/
def attType (s : List Char) : Res (AttType × List Char) :=
  match eat s c!"NOTATION" with
  | some s => .ok (.cdata, s)
  | none =>
    match eat s c!"(" with
    | some s =>
      match getUntil [c!")"] s with
      | none => .error
      | some f =>
        match enumValues (toStr f.text) with
        | none => .ub
        | some vs => .ok (.enum vs, f.after)
    | none =>
      match word s typeWords with
      | none => .error
      | some r => .ok r

/-- The marks of the DTD (src/axl_dtd.c:1562, 1568, 1576). -/
def Dtd.mark (d : Dtd) (t : AttType) : Dtd :=
  match t with
  | .id => { d with haveId := true }
  | .idref => { d with haveIdRef := true }
  | .idrefs => { d with haveIdRef := true }
  | _ => d

/-- The mark of a value that cannot change (src/axl_dtd.c:1605-1611). -/
def attFixed (s : List Char) : Defaults × List Char :=
  match eat s c!"#FIXED" with
  | some s => (.fixed, skip s)
  | none => (.implied, s)

/-- The default declaration (src/axl_dtd.c:1599-1623). -/
def attDefault (s : List Char) : Option (Defaults × List Char) :=
  match eat s c!"#REQUIRED" with
  | some s => some (.required, s)
  | none =>
    match eat s c!"#IMPLIED" with
    | some s => some (.implied, s)
    | none =>
      let (defaults, s) := attFixed s
      if peek s c!"\"" || peek s c!"'" then some (defaults, s) else none

/-- The default value (src/axl_dtd.c:1655-1663): NULL if there is none or it has no end, and then the stream stays
after the first quote. -/
def attValue (s : List Char) : Option (List Char) × List Char :=
  match Parse.quote s with
  | none => (none, s)
  | some (q, s) => Parse.attrValue q s

/-- The checks of an ID declaration (src/axl_dtd.c:1625-1650): `decls` with the new declaration at the end. -/
def idFine (decls : List AttDecl) (decl : AttDecl) : Bool :=
  if decl.type = .id then
    (match decls.find? fun x => decide (x.type = .id) with
     | some first => cmp (some first.name) (some decl.name)
     | none => true) && (decl.defaults = .required || decl.defaults = .implied)
  else true

/-- A default value of an enumeration is one of its values (src/axl_dtd.c:1671-1679). -/
def valueFine (t : AttType) (value : Option (List Char)) : Bool :=
  match t, value with
  | .enum vs, some v => vs.any fun x => cmp (some x) (some v)
  | _, _ => true

/-- The loop of `__axl_dtd_parse_attlist` (src/axl_dtd.c:1496-1688); `.loop` when it has not ended after the rounds
given. -/
def attlistLoop : Nat → Dtd → List AttDecl → List Char → Res (Dtd × List AttDecl × List Char)
  | 0, _, _, _ => .loop
  | fuel + 1, d, decls, s =>
    match eat (skip s) c!">" with
    | some s => .ok (d, decls, s)
    | none =>
      match getUntil [c!" "] (skip s) with
      | none => .error
      | some f =>
        match expand d (skip f.at_) with
        | .ok s =>
          match attType s with
          | .ok (type, s) =>
            match attDefault (skip s) with
            | none => .error
            | some (defaults, s) =>
              let (value, s) := attValue (skip s)
              let decl : AttDecl := ⟨toStr f.text, type, defaults, value⟩
              if !idFine (decls ++ [decl]) decl then .error
              else if !valueFine type value then .error
              else attlistLoop fuel (d.mark type) (decls ++ [decl]) s
          | .error => .error
          | .ub => .ub
          | .loop => .loop
        | .error => .error
        | .ub => .ub
        | .loop => .loop

/-- The declarations of an element after those of an ATTLIST were added to the list. -/
def setDecls (name : List Char) (decls : List AttDecl) : List AttList → List AttList
  | [] => [⟨name, decls⟩]
  | al :: als => if al.name == name then { al with decls := decls } :: als else al :: setDecls name decls als

/-- The declarations there are for an element, none when it has no list yet (src/axl_dtd.c:1478-1501). -/
def Dtd.declsOf (d : Dtd) (name : List Char) : List AttDecl :=
  match d.attr name with
  | none => []
  | some al => al.decls

/-- `__axl_dtd_parse_attlist` (src/axl_dtd.c:1450-1692), called after "<!ATTLIST". -/
def parseAttlist (fuel : Nat) (d : Dtd) (s : List Char) : Res (Dtd × List Char) :=
  match getUntil [c!" "] (skip s) with
  | none => .error
  | some f =>
    match attlistLoop fuel d (d.declsOf (toStr f.text)) f.at_ with
    | .ok (d, decls, s) => .ok ({ d with attributes := setDecls (toStr f.text) decls d.attributes }, s)
    | .error => .error
    | .ub => .ub
    | .loop => .loop

/-! ### Entities -/

/-- The value of an entity (src/axl_dtd.c:1799-1832): NULL for an external one, and for one that has no end. -/
def entityContent (s : List Char) : Option (Option (List Char) × List Char) :=
  match eat s c!"PUBLIC" with
  | some s => some (none, s)
  | none =>
    match eat s c!"SYSTEM" with
    | some s => some (none, s)
    | none =>
      match Parse.quote s with
      | none => none
      | some (q, s) => some (Parse.attrValue q s)

/-- The type of an entity (src/axl_dtd.c:1765, 1773-1782). -/
def entityType (s : List Char) : EntityType × List Char :=
  match eat (skip s) c!"%" with
  | some s => (.parameter, skip s)
  | none => (.general, skip s)

/-- `__axl_dtd_parse_entity` (src/axl_dtd.c:1744-1846). -/
def parseEntity (d : Dtd) (s : List Char) : Res (Dtd × List Char) :=
  match eat (skip s) c!"<!ENTITY" with
  | none => .error
  | some s =>
    let (type, s) := entityType s
    match getUntil [c!" "] s with
    | none => .error
    | some f =>
      match entityContent (skip f.at_) with
      | none => .error
      | some (content, s) =>
        match eat (skip s) c!">" with
        | none => .error
        | some s => .ok ({ d with entities := d.entities ++ [⟨toStr f.text, type, content⟩] }, s)

/-! ### The root -/

mutual
/-- How many items there are in a content model, at every level. -/
def Part.count : Part → Nat
  | .node _ _ => 1
  | .list _ _ items => countAll items + 1
def countAll : List Part → Nat
  | [] => 0
  | p :: ps => p.count + countAll ps
end

/-- `dtd_element->list`. -/
def Element.list (e : Element) : Option Content :=
  match e.type with
  | .any => none
  | .empty => none
  | .mixed l => some l
  | .pcdata l => some l
  | .children l => some l
  | .unclosed l => some l

/-- The loop of `__axl_dtd_get_is_parent` (src/axl_dtd.c:427-458): the stack, the top first.  NULL, popped from an
empty stack, is read. -/
def isParentLoop (name : List Char) : Nat → List Part → Res Bool
  | 0, _ => .loop
  | _ + 1, [] => .ub
  | fuel + 1, .node _ n :: stack =>
    if cmp (some n) (some name) then .ok true
    else if stack.isEmpty then .ok false else isParentLoop name fuel stack
  | fuel + 1, .list _ _ items :: stack =>
    if (items.reverse ++ stack).isEmpty then .ok false else isParentLoop name fuel (items.reverse ++ stack)

/-- `__axl_dtd_get_is_parent` (src/axl_dtd.c:403-465).  A list of items without items is NULL. -/
def isParent (parent child : Element) : Res Bool :=
  match parent.list with
  | none => .ok false
  | some l => if l.items.isEmpty then .ok false else isParentLoop child.name (countAll l.items + 1) l.items.reverse

/-- The inner loop of `__axl_dtd_get_new_root` (src/axl_dtd.c:489-505): the root and `change_detected`. -/
def rootRound : List Element → Element → Bool → Res (Element × Bool)
  | [], root, changed => .ok (root, changed)
  | e :: es, root, changed =>
    match isParent e root with
    | .ok true => rootRound es e true
    | .ok false => rootRound es root changed
    | .error => .error
    | .ub => .ub
    | .loop => .loop

/-- The outer loop of `__axl_dtd_get_new_root` (src/axl_dtd.c:485-506); `.loop` when it has not ended after the rounds
given. -/
def newRoot (elements : List Element) : Nat → Element → Res Element
  | 0, _ => .loop
  | fuel + 1, root =>
    match rootRound elements root false with
    | .ok (root, true) => newRoot elements fuel root
    | .ok (root, false) => .ok root
    | .error => .error
    | .ub => .ub
    | .loop => .loop

/-! ### The whole -/

/-- `__axl_dtd_new` (src/axl_dtd.c:323-332). -/
def Dtd.new : Dtd := ⟨[], [], none, false, false, []⟩

/-- `axl_doc_consume_comments (NULL, …)` (src/axl_dtd.c:1873, src/axl_doc.c:3327-3396): without a document comments are
not stored and instructions are not read. -/
def dtdComments (s : List Char) : Res (List Char) :=
  match Parse.comments false (s.length + 1) ⟨[], none, [], [], []⟩ s with
  | .ok (_, s) => .ok s
  | .error => .error
  | .ub => .ub
  | .loop => .loop

/-- One declaration (src/axl_dtd.c:1876-1907): `none` if there is none. -/
def declaration (fuel : Nat) (d : Dtd) (s : List Char) : Option (Res (Dtd × List Char)) :=
  if peek s c!"<!ELEMENT" then some (parseElement d s)
  else
    match eat s c!"<!ATTLIST" with
    | some s => some (parseAttlist fuel d s)
    | none => if peek s c!"<!ENTITY" then some (parseEntity d s) else none

/-- The loop of `__axl_dtd_parse_common` (src/axl_dtd.c:1870-1916): `iterator` counts the rounds that found nothing. -/
def parseLoop (fuel : Nat) : Nat → Nat → Dtd → List Char → Res Dtd
  | 0, _, _, _ => .loop
  | k + 1, iterator, d, s =>
    if s.isEmpty then .ok d
    else
      match dtdComments s with
      | .ok s =>
        match declaration fuel d s with
        | none => if iterator = 3 then .error else parseLoop fuel k (iterator + 1) d s
        | some (.ok (d, s)) => parseLoop fuel k iterator d s
        | some .error => .error
        | some .ub => .ub
        | some .loop => .loop
      | .error => .error
      | .ub => .ub
      | .loop => .loop

/-- The end of `__axl_dtd_parse_common` (src/axl_dtd.c:1921-1932). -/
def conclude (fuel : Nat) (d : Dtd) : Res Dtd :=
  let root : Res (Option Element) :=
    match d.elements with
    | [] => .ok none
    | e :: _ =>
      match newRoot d.elements fuel e with
      | .ok e => .ok (some e)
      | .error => .error
      | .ub => .ub
      | .loop => .loop
  match root with
  | .ok root => if !d.haveId && d.haveIdRef then .error else .ok { d with root := root }
  | .error => .error
  | .ub => .ub
  | .loop => .loop

/-- The declarations of a text, before the root is chosen (src/axl_dtd.c:1864-1916). -/
def declarations (fuel : Nat) (text : List Char) : Res Dtd := parseLoop fuel (fuel + 5) 0 Dtd.new text

/-- `axl_dtd_parse` (src/axl_dtd.c:1957-1963), `__axl_dtd_parse_common` (src/axl_dtd.c:1855-1939). -/
def parse (fuel : Nat) (text : List Char) : Res Dtd :=
  match declarations fuel text with
  | .ok d => conclude fuel d
  | .error => .error
  | .ub => .ub
  | .loop => .loop

end Axl.Dtd
