/-
Model of `axl_dtd_parse_from_file` (src/axl_dtd.c).  The functions are those of `Verif.Model.DtdParse` with the stream
over a descriptor of `Verif.Model.FileStream`: each of them may refill the buffer, and what is not in the buffer is not
seen.

Simplifications: those of both; the loops that are bounded by the text are bounded by the bytes left.
-/
import Verif.Model.DtdParse
import Verif.Model.FileParse

namespace Axl
namespace DtdFile
open Str Dtd
open FileStream (FS Source Got)
open FileParse (skip look eat peek untilOne left)

/-! ### Content models -/

/-- `__axl_dtd_get_repetition_conf` (src/axl_dtd.c:634-662). -/
def repetition (s : FS Char) : Res (Times × FS Char) := do
  let (found, s) ← eat s c!"?"
  if found then .ok (.opt, s)
  else do
    let (found, s) ← eat s c!"+"
    if found then .ok (.some1, s)
    else do
      let (found, s) ← eat s c!"*"
      if found then .ok (.many, s) else .ok (.one, s)

/-- `__axl_dtd_element_spec_update_chunk_matched_for_cp_separator` (src/axl_dtd.c:754-781): 0 if none is there. -/
def separator (s : FS Char) : Res (Nat × FS Char) := do
  let s ← skip s
  let (found, s) ← eat s c!","
  if found then .ok (1, s)
  else do
    let (found, s) ← eat s c!"|"
    if found then .ok (2, s)
    else do
      let (found, s) ← eat s c!")"
      if found then .ok (3, s) else .ok (0, s)

/-- `__axl_dtd_element_spec_update_chunk_matched` (src/axl_dtd.c:709-745) with the white spaces before it
(src/axl_dtd.c:946): the first three are those of `separator`. -/
def afterSpace (s : FS Char) : Res (Nat × FS Char) := do
  let (chunk, s) ← separator s
  if chunk ≠ 0 then .ok (chunk, s)
  else do
    let (found, s) ← eat s c!"+"
    if found then .ok (4, s)
    else do
      let (found, s) ← eat s c!"*"
      if found then .ok (5, s)
      else do
        let (found, s) ← eat s c!"?"
        if found then .ok (6, s) else .ok (0, s)

/-- The separator after a list that was closed (src/axl_dtd.c:1023-1033). -/
def closeSep (chunk : Nat) (s : FS Char) : Res (Nat × FS Char) := do
  let s ← skip s
  let (found, s) ← eat s c!","
  if found then .ok (1, s)
  else do
    let (found, s) ← eat s c!"|"
    if found then .ok (2, s) else .ok (chunk, s)

/-- The loop that closes lists (src/axl_dtd.c:1015-1049). -/
def closeLoop : Nat → Reading → Nat → FS Char → Res (Reading × Nat × FS Char)
  | 0, _, _, _ => .loop
  | fuel + 1, r, chunk, s => do
    let s ← skip s
    let (times, s) ← repetition s
    let (chunk, s) ← closeSep chunk s
    let s ← skip s
    let (found, s) ← eat s c!")"
    match r.stack with
    | [] => .ok ({ r with cur := { r.cur with times := times }, closed := true }, chunk, s)
    | parent :: stack =>
      let r := { r with cur := { parent with items := parent.items ++ [.list r.cur.kind times r.cur.items] }, stack := stack }
      if found then closeLoop fuel r chunk s else .ok (r, chunk, s)

/-- The white spaces after a particle, if there was one, and what follows them (src/axl_dtd.c:937-958). -/
def chunkOf (chunk : Nat) (s : FS Char) : Res (Nat × FS Char) := if chunk = 0 then afterSpace s else .ok (chunk, s)

/-- The separator after a repetition (src/axl_dtd.c:966-975): 0 is the error. -/
def afterTimes (chunk : Nat) (s : FS Char) : Res (Nat × FS Char) := do
  if chunk = 4 || chunk = 5 || chunk = 6 then do
    let (chunk, s) ← separator s
    if chunk = 0 then .error else .ok (chunk, s)
  else .ok (chunk, s)

/-- The loop of `__axl_dtd_read_element_spec` (src/axl_dtd.c:888-1058). -/
def specLoop : Nat → Reading → FS Char → Res (Reading × FS Char)
  | 0, _, _ => .loop
  | fuel + 1, r, s => do
    let s ← skip s
    let (found, s) ← eat s c!"("
    if found then specLoop fuel { r with cur := ⟨.undef, .one, []⟩, stack := r.cur :: r.stack } s
    else do
      let (g, s) ← untilOne delimiters true s
      match g with
      | none => .error
      | some f => do
        let (chunk, s) ← chunkOf f.chunk s
        let items := r.cur.items ++ [.node (chunkTimes chunk) (toStr f.text)]
        let (chunk, s) ← afterTimes chunk s
        match kindAfter r.cur.kind chunk with
        | none => .error
        | some kind =>
          let r := { r with cur := { r.cur with kind := kind, items := items }, sort := sortAfter r (toStr f.text) chunk items }
          if chunk = 3 then do
            let (r, chunk, s) ← closeLoop (left s + 1) r chunk s
            if chunk ≠ 3 || !r.stack.isEmpty then specLoop fuel r s else .ok (r, s)
          else specLoop fuel r s

/-- `__axl_dtd_read_element_spec` (src/axl_dtd.c:846-1082).  The answer of the first check is not compared with 0: at
the end of the stream it is -1 and passes. -/
def readSpec (s : FS Char) : Res (ElementType × FS Char) := do
  let s ← skip s
  let (l, s) ← look s c!"("
  match l with
  | .no => .error
  | _ => do
    let (r, s) ← specLoop (left s + 1) ⟨⟨.undef, .one, []⟩, [], .children, false⟩ s
    .ok (r.type, s)

/-- The content specification of an element (src/axl_dtd.c:1207-1236). -/
def elementType (s : FS Char) : Res (ElementType × FS Char) := do
  let s ← skip s
  let (found, s) ← eat s c!"EMPTY"
  if found then .ok (.empty, s)
  else do
    let (found, s) ← eat s c!"ANY"
    if found then .ok (.any, s) else readSpec s

/-- The terminator of an element declaration (src/axl_dtd.c:1242-1250): here too -1 passes. -/
def elementEnd (s : FS Char) : Res (FS Char) := do
  let s ← skip s
  let (l, s) ← look s c!">"
  match l with
  | .no => .error
  | _ => .ok s

/-- `__axl_dtd_parse_element` (src/axl_dtd.c:1162-1261) with `__axl_dtd_add_element` (src/axl_dtd.c:531-558). -/
def parseElement (d : Dtd) (s : FS Char) : Res (Dtd × FS Char) := do
  let s ← skip s
  let (found, s) ← eat s c!"<!ELEMENT"
  if found then do
    let s ← skip s
    let (g, s) ← untilOne [c!">", c!"(", c!" "] false s
    match g with
    | none => .error
    | some f =>
      if f.chunk = 0 then .error
      else do
        let (type, s) ← elementType s
        if d.elements.any fun e => cmp (some e.name) (some (toStr f.text)) then .error
        else do
          let s ← elementEnd s
          .ok ({ d with elements := d.elements ++ [⟨toStr f.text, type⟩] }, s)
  else .error

/-! ### Attributes -/

/-- `axl_stream_push` (src/axl_stream.c:837-898): the content and what was not read are the new buffer.  When they are more
than what the buffer holds (not than what it can hold) another one is made, and `buffer_size` is its size. -/
def push (s : FS Char) (content : List Char) : FS Char :=
  let data := content ++ s.data.drop s.index
  if s.data.length < data.length then { s with data := data, index := 0, bufSize := data.length }
  else { s with data := data, index := 0 }

/-- `axl_dtd_check_entity_ref_and_expand` (src/axl_dtd.c:1347-1391) with the prefix "%".  The place to go back to
(`axl_stream_move`) is an index of the buffer, that a refill may have changed in between. -/
def expand (d : Dtd) (s0 : FS Char) : Res (FS Char) := do
  let (found, s) ← eat s0 c!"%"
  if found then do
    let (g, s) ← untilOne [c!";"] true s
    match g with
    | none => .error
    | some f =>
      match d.entityValue (toStr f.text) .parameter with
      | none => .ok { s with index := s0.index }
      | some v => .ok (push s (v ++ [' ']))
  else .ok s

/-- The first word that the stream begins with. -/
def word (s : FS Char) : List (List Char × AttType) → Res (AttType × FS Char)
  | [] => .error
  | (w, t) :: ws => do
    let (found, s) ← eat s w
    if found then .ok (t, s) else word s ws

/-- The type of an attribute (src/axl_dtd.c:1539-1591). -/
def attType (s : FS Char) : Res (AttType × FS Char) := do
  let (found, s) ← eat s c!"NOTATION"
  if found then .ok (.cdata, s)
  else do
    let (found, s) ← eat s c!"("
    if found then do
      let (g, s) ← untilOne [c!")"] true s
      match g with
      | none => .error
      | some f =>
        match enumValues (toStr f.text) with
        | none => .ub
        | some vs => .ok (.enum vs, s)
    else word s typeWords

/-- The mark of a value that cannot change (src/axl_dtd.c:1605-1611). -/
def attFixed (s : FS Char) : Res (Defaults × FS Char) := do
  let (found, s) ← eat s c!"#FIXED"
  if found then do
    let s ← skip s
    .ok (.fixed, s)
  else .ok (.implied, s)

/-- A quote is next (src/axl_dtd.c:1614-1615). -/
def quoted (s : FS Char) : Res (Bool × FS Char) := do
  let (found, s) ← peek s c!"\""
  if found then .ok (true, s) else peek s c!"'"

/-- The default declaration (src/axl_dtd.c:1599-1623). -/
def attDefault (s : FS Char) : Res (Defaults × FS Char) := do
  let (found, s) ← eat s c!"#REQUIRED"
  if found then .ok (.required, s)
  else do
    let (found, s) ← eat s c!"#IMPLIED"
    if found then .ok (.implied, s)
    else do
      let (defaults, s) ← attFixed s
      let (found, s) ← quoted s
      if found then .ok (defaults, s) else .error

/-- The default value (src/axl_dtd.c:1655-1663). -/
def attValue (s : FS Char) : Res (Option (List Char) × FS Char) := do
  let (q, s) ← FileParse.quote s
  match q with
  | none => .ok (none, s)
  | some q => FileParse.attrValue q s

/-- The loop of `__axl_dtd_parse_attlist` (src/axl_dtd.c:1496-1688). -/
def attlistLoop : Nat → Dtd → List AttDecl → FS Char → Res (Dtd × List AttDecl × FS Char)
  | 0, _, _, _ => .loop
  | fuel + 1, d, decls, s => do
    let s ← skip s
    let (found, s) ← eat s c!">"
    if found then .ok (d, decls, s)
    else do
      let (g, s) ← untilOne [c!" "] false s
      match g with
      | none => .error
      | some f => do
        let s ← skip s
        let s ← expand d s
        let (type, s) ← attType s
        let s ← skip s
        let (defaults, s) ← attDefault s
        let s ← skip s
        let (value, s) ← attValue s
        let decl : AttDecl := ⟨toStr f.text, type, defaults, value⟩
        if !idFine (decls ++ [decl]) decl then .error
        else if !valueFine type value then .error
        else attlistLoop fuel (d.mark type) (decls ++ [decl]) s

/-- `__axl_dtd_parse_attlist` (src/axl_dtd.c:1450-1692), called after "<!ATTLIST". -/
def parseAttlist (fuel : Nat) (d : Dtd) (s : FS Char) : Res (Dtd × FS Char) := do
  let s ← skip s
  let (g, s) ← untilOne [c!" "] false s
  match g with
  | none => .error
  | some f => do
    let (d, decls, s) ← attlistLoop fuel d (d.declsOf (toStr f.text)) s
    .ok ({ d with attributes := setDecls (toStr f.text) decls d.attributes }, s)

/-! ### Entities -/

/-- The value of an entity (src/axl_dtd.c:1799-1832). -/
def entityContent (s : FS Char) : Res (Option (List Char) × FS Char) := do
  let (found, s) ← eat s c!"PUBLIC"
  if found then .ok (none, s)
  else do
    let (found, s) ← eat s c!"SYSTEM"
    if found then .ok (none, s)
    else do
      let (q, s) ← FileParse.quote s
      match q with
      | none => .error
      | some q => FileParse.attrValue q s

/-- The type of an entity (src/axl_dtd.c:1765, 1773-1782). -/
def entityType (s : FS Char) : Res (EntityType × FS Char) := do
  let s ← skip s
  let (found, s) ← eat s c!"%"
  if found then do
    let s ← skip s
    .ok (.parameter, s)
  else .ok (.general, s)

/-- `__axl_dtd_parse_entity` (src/axl_dtd.c:1744-1846). -/
def parseEntity (d : Dtd) (s : FS Char) : Res (Dtd × FS Char) := do
  let s ← skip s
  let (found, s) ← eat s c!"<!ENTITY"
  if found then do
    let (type, s) ← entityType s
    let (g, s) ← untilOne [c!" "] false s
    match g with
    | none => .error
    | some f => do
      let s ← skip s
      let (content, s) ← entityContent s
      let s ← skip s
      let (found, s) ← eat s c!">"
      if found then .ok ({ d with entities := d.entities ++ [⟨toStr f.text, type, content⟩] }, s) else .error
  else .error

/-! ### The whole -/

/-- `axl_doc_consume_comments (NULL, …)` (src/axl_dtd.c:1873, src/axl_doc.c:3327-3396). -/
def dtdComments (s : FS Char) : Res (FS Char) := do
  let (_, s) ← FileParse.comments false (left s + 1) ⟨[], none, [], [], []⟩ s
  .ok s

/-- One declaration (src/axl_dtd.c:1876-1907): `none` if there is none. -/
def declaration (fuel : Nat) (d : Dtd) (s : FS Char) : Res (Option Dtd × FS Char) := do
  let (found, s) ← peek s c!"<!ELEMENT"
  if found then do
    let (d, s) ← parseElement d s
    .ok (some d, s)
  else do
    let (found, s) ← eat s c!"<!ATTLIST"
    if found then do
      let (d, s) ← parseAttlist fuel d s
      .ok (some d, s)
    else do
      let (found, s) ← peek s c!"<!ENTITY"
      if found then do
        let (d, s) ← parseEntity d s
        .ok (some d, s)
      else .ok (none, s)

/-- The loop of `__axl_dtd_parse_common` (src/axl_dtd.c:1870-1916). -/
def parseLoop (fuel : Nat) : Nat → Nat → Dtd → FS Char → Res Dtd
  | 0, _, _, _ => .loop
  | k + 1, iterator, d, s => do
    let (remains, s) ← FileStream.remains 0 s
    if remains then do
      let s ← dtdComments s
      let (new, s) ← declaration fuel d s
      match new with
      | none => if iterator = 3 then .error else parseLoop fuel k (iterator + 1) d s
      | some d => parseLoop fuel k iterator d s
    else .ok d

/-- `__axl_dtd_parse_common` (src/axl_dtd.c:1855-1939) over a stream. -/
def parseStream (fuel : Nat) (s : FS Char) : Res Dtd := do
  let d ← parseLoop fuel (fuel + 5) 0 Dtd.new s
  conclude fuel d

/-- `axl_dtd_parse_from_file` (src/axl_dtd.c:2014-2018) with a file that is there, or `none` when it cannot be opened
(src/axl_stream.c:539-544, src/axl_dtd.c:1864-1865). -/
def parseFile (fuel : Nat) (file : Option (List Char)) : Res Dtd :=
  match file with
  | none => .error
  | some text => parseStream fuel (FileStream.new ⟨text, []⟩ FileParse.bufferSize)

end DtdFile
end Axl
