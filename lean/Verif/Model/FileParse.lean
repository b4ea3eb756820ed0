/-
Model of the parser of src/axl_doc.c for a document in a file: `axl_doc_parse_from_file`.  The functions are
those of `Verif.Model.Parse` with the stream over a descriptor of `Verif.Model.FileStream`: each of them may
refill the buffer, and what is not in the buffer is not seen.

Simplifications: those of both; there is no decoder (see `Verif.Model.BabelParse` for the encodings), so the
value `op_result` of `axl_stream_prebuffer` is not read (0 is given); the loops are bounded by the bytes left.
-/
import Verif.Model.FileStream

namespace Axl
namespace FileParse
open Str Parse
open FileStream (FS Source Got)

/-- The bytes in the buffer and in the file, to bound the loops. -/
def left (s : FS Char) : Nat := s.data.length - s.index + (s.fd.map fun src => src.rest.length).getD 0

/-- `axl_stream_consume_white_spaces` (src/axl_stream.c:1959-2001). -/
def skip (s : FS Char) : Res (FS Char) := FileStream.skip 0 (left s + 1) s

/-- `axl_stream_inspect` (src/axl_stream.c:669-675). -/
def look (s : FS Char) (chunk : List Char) : Res (Stream.Look × FS Char) := FileStream.inspect 0 s chunk true

/-- `axl_stream_inspect (stream, chunk, size) > 0`. -/
def eat (s : FS Char) (chunk : List Char) : Res (Bool × FS Char) := do
  let (l, s) ← look s chunk
  match l with
  | .yes _ => .ok (true, s)
  | _ => .ok (false, s)

/-- `axl_stream_peek (stream, chunk, size) > 0` (src/axl_stream.c:714-720). -/
def peek (s : FS Char) (chunk : List Char) : Res (Bool × FS Char) := do
  let (l, s) ← FileStream.inspect 0 s chunk false
  match l with
  | .yes _ => .ok (true, s)
  | _ => .ok (false, s)

/-- `axl_stream_inspect_several` (src/axl_stream.c:751-803) with two chunks of the same size. -/
def lookTwo (s : FS Char) (a b : List Char) : Res (Stream.Look × FS Char) := do
  let (l, s) ← look s a
  match l with
  | .yes rest => .ok (.yes rest, s)
  | .short => do
    let (m, s) ← look s b
    match m with
    | .yes rest => .ok (.yes rest, s)
    | _ => .ok (.short, s)
  | .no => look s b

/-- `axl_stream_get_until` (src/axl_stream.c:994-1014). -/
def untilOne (chunks : List (List Char)) (accept : Bool) (s : FS Char) : Res (Option Got × FS Char) :=
  FileStream.getUntil 0 (2 * left s + 1) chunks accept s

/-- `axl_stream_get_until_ref` with the terminator accepted (src/axl_stream.c:1071-1094); a text without bytes gives
NULL, see `Stream.getUntilRef`. -/
def untilRef (chunks : List (List Char)) (s : FS Char) : Res (Option (List Char) × FS Char) := do
  let (g, s) ← untilOne chunks true s
  match g with
  | none => .ok (none, s)
  | some g => if g.text = [] then .ok (none, s) else .ok (some g.text, s)

/-- `axl_doc_consume_pi` (src/axl_doc.c:3414-3517). -/
def consumePi (st : St) (s : FS Char) : Res (St × FS Char) := do
  let (found, s) ← eat s c!"<?"
  if found then do
    let (g, s) ← untilOne [c!" ?>", c!"?>", c!" "] true s
    match g with
    | none => .error
    | some f =>
      if cmp (some (toLowerStr (toStr f.text))) (some c!"xml") then .error
      else if f.chunk = 0 ∨ f.chunk = 1 then .ok (st.addPI ⟨toStr f.text, none⟩, s)
      else do
        let (g, s) ← untilOne [c!" ?>", c!"?>"] true s
        match g with
        | none => .error
        | some g => .ok (st.addPI ⟨toStr f.text, some (toStr g.text)⟩, s)
  else .ok (st, s)

/-- The first half of the loop of `axl_doc_consume_comments` (src/axl_doc.c:3345-3368). -/
def comment (st : St) (s : FS Char) : Res (Bool × St × FS Char) := do
  let s ← skip s
  let (found, s) ← eat s c!"<!--"
  if found then do
    let (text, s) ← untilRef [c!"-->"] s
    match text with
    | none => .error
    | some text => .ok (true, st.addLeaf (.comment text), s)
  else .ok (false, st, s)

/-- The second half: an instruction, if there is one and the header was read (src/axl_doc.c:3371-3380). -/
def instruction (header : Bool) (st : St) (s : FS Char) : Res (Bool × St × FS Char) := do
  let s ← skip s
  if header then do
    let (found, s) ← peek s c!"<?"
    if found then do
      let (st, s) ← consumePi st s
      .ok (true, st, s)
    else .ok (false, st, s)
  else .ok (false, st, s)

/-- `axl_doc_consume_comments` (src/axl_doc.c:3327-3396). -/
def comments (header : Bool) : Nat → St → FS Char → Res (St × FS Char)
  | 0, _, _ => .loop
  | fuel + 1, st, s => do
    let (found, st, s) ← comment st s
    let (found2, st, s) ← instruction header st s
    if found || found2 then comments header fuel st s
    else do
      let s ← skip s
      .ok (st, s)

/-- The initiator of an attribute value (src/axl_doc.c:959-973): which quote, and the stream after it. -/
def quote (s : FS Char) : Res (Option Char × FS Char) := do
  let (found, s) ← eat s c!"\""
  if found then .ok (some '"', s)
  else do
    let (found, s) ← eat s c!"'"
    if found then .ok (some '\'', s) else .ok (none, s)

/-- The value of an attribute (src/axl_doc.c:976-980): NULL, without reading, when it is not ended. -/
def attrValue (q : Char) (s : FS Char) : Res (Option (List Char) × FS Char) := do
  let (g, s) ← untilOne [[q]] true s
  .ok (g.map fun g => toStr g.text, s)

/-- One attribute (src/axl_doc.c:933-1037). -/
def attrib (st : St) (s : FS Char) : Res (St × FS Char) := do
  let s ← skip s
  let (g, s) ← untilOne [c!"="] true s
  match g with
  | none => .error
  | some f =>
    if toStr f.text = [] then .error
    else do
      let (q, s) ← quote s
      match q with
      | none => .error
      | some q => do
        let (value, s) ← attrValue q s
        match st.opened with
        | [] => .ub
        | o :: os => do
          let has ← Res.ofOption (o.attrs.hasAttribute (toStr f.text))
          if has || o.noValue.contains (toStr f.text) then .error
          else do
            let o ← setAttr o (toStr f.text) value
            let st ← space { st with opened := o :: os } (toStr f.text) value
            let s ← skip s
            .ok (st, s)

/-- The loop of `__axl_doc_parse_node` when the name ended with a white space (src/axl_doc.c:878-1046). -/
def attrLoop : Nat → St → FS Char → Res (St × FS Char × Bool)
  | 0, _, _ => .loop
  | fuel + 1, st, s => do
    let (found, s) ← eat s c!"/>"
    if found then .ok (st.pop, s, true)
    else do
      let (found, s) ← eat s c!">"
      if found then .ok (st, s, false)
      else do
        let (st, s) ← attrib st s
        attrLoop fuel st s

/-- The opening "<", that may be missing unless nothing remains (src/axl_doc.c:790-799). -/
def openAngle (s : FS Char) : Res (Bool × FS Char) := do
  let (found, s) ← eat s c!"<"
  if found then .ok (true, s) else FileStream.remains 0 s

/-- The loop of `__axl_doc_parse_node` when the name ended with ">" (src/axl_doc.c:878-930). -/
def endOfName (st : St) (s : FS Char) : Res (St × FS Char × Bool) := do
  let (found, s) ← eat s c!"/>"
  if found then .ok (st.pop, s, true) else .ok (st, s, false)

/-- The name of a node and its attributes (src/axl_doc.c:812-1046). -/
def parseTag (st : St) (s : FS Char) : Res (St × FS Char × Bool) := do
  let (g, s) ← untilOne [c!">", c!" "] true s
  match g with
  | none => .error
  | some f =>
    if toStr f.text = [] then .error
    else if f.chunk = 1 then do
      let s ← skip s
      attrLoop (left s + 1) (st.push (toStr f.text)) s
    else if (toStr f.text).getLast? = some '/' then .ok ((st.push (toStr f.text).dropLast).pop, s, true)
    else endOfName (st.push (toStr f.text)) s

/-- `__axl_doc_parse_node` (src/axl_doc.c:772-1050). -/
def parseNode (st : St) (s : FS Char) : Res (St × FS Char × Bool) := do
  let (st, s) ← comments true (left s + 1) st s
  let (opened, s) ← openAngle s
  if opened then parseTag st s else .error

/-- `__axl_doc_parse_close_node` (src/axl_doc.c:1057-1110) and the pop after it (src/axl_doc.c:1200-1206). -/
def closeNode (st : St) (s : FS Char) : Res (St × FS Char) := do
  let (text, s) ← untilRef [c!">"] s
  match text with
  | none => .error
  | some text =>
    match st.opened with
    | [] => .error
    | o :: _ =>
      if cmp (some o.name) (some (closeName text)) then .ok ({ st.pop with preserve := st.preserve.tail }, s)
      else .error

/-- A CDATA section (src/axl_doc.c:1220-1244). -/
def cdata (st : St) (s : FS Char) : Res (St × FS Char) := do
  let (g, s) ← untilOne [c!"]]>"] true s
  match g with
  | none => .error
  | some f => .ok (st.addLeaf (.cdata (toStr f.text)), s)

/-- The content of a node (src/axl_doc.c:1269-1287). -/
def content (st : St) (s : FS Char) : Res (St × FS Char) := do
  let (g, s) ← untilOne [c!"<"] false s
  match g with
  | none => .error
  | some f => .ok (st.addLeaf (.content (toStr f.text)), s)

/-- "<?" or "<!--" is next (src/axl_doc.c:1179). -/
def peekTwo (s : FS Char) : Res (Bool × FS Char) := do
  let (found, s) ← peek s c!"<?"
  if found then .ok (true, s) else peek s c!"<!--"

/-- `axl_stream_move` to the place the pass began at, if the index is now behind it (src/axl_doc.c:1263-1267,
src/axl_stream.c:911-919): the index is one of the buffer, that a refill may have changed in between. -/
def restore (index : Nat) (s : FS Char) : FS Char := if s.index > index then { s with index := index } else s

/-- The white spaces before a node, unless they are to be preserved (src/axl_doc.c:1174-1176). -/
def skipUnless (preserve : Bool) (s : FS Char) : Res (FS Char) := if preserve then .ok s else skip s

/-- One pass of the loop of `__axl_doc_parse_common` (src/axl_doc.c:1164-1290). -/
def pass (st : St) (s0 : FS Char) : Res (St × FS Char × Bool) := do
  let s ← skipUnless st.preserves s0
  let (found, s) ← peekTwo s
  if found then do
    let (st, s) ← comments true (left s + 1) st s
    .ok (st, s, true)
  else do
    let (found, s) ← eat s c!"</"
    if found then do
      let (st, s) ← closeNode st s
      .ok (st, s, !st.opened.isEmpty)
    else do
      let (found, s) ← eat s c!"<![CDATA["
      if found then do
        let (st, s) ← cdata st s
        .ok (st, s, true)
      else do
        let (found, s) ← eat s c!"<"
        if found then do
          let (st, s, _) ← parseNode st s
          .ok (st, s, true)
        else do
          let (st, s) ← content st (restore s0.index s)
          .ok (st, s, true)

/-- The loop of `__axl_doc_parse_common` (src/axl_doc.c:1164-1290). -/
def mainLoop : Nat → St → FS Char → Res St
  | 0, _, _ => .loop
  | fuel + 1, st, s => do
    let (remains, s) ← FileStream.remains 0 s
    if remains then do
      let (st, s, more) ← pass st s
      if more then mainLoop fuel st s else .ok st
    else .ok st

/-- A quoted value in the header, after its first quote (src/axl_doc.c:657-662, 682-687). -/
def headerValue (s : FS Char) : Res (List Char × FS Char) := do
  let (g, s) ← untilOne [c!"'", c!"\""] true s
  match g with
  | none => .error
  | some f => .ok (f.text, s)

/-- The encoding in the header (src/axl_doc.c:652-673). -/
def encoding (s : FS Char) : Res (Option (List Char) × FS Char) := do
  let (l, s) ← lookTwo s c!"encoding=\"" c!"encoding='"
  match l with
  | .yes _ => do
    let (v, s) ← headerValue s
    .ok (some (toStr v), s)
  | _ => .ok (none, s)

/-- The standalone part of the header (src/axl_doc.c:679-694). -/
def standalone (s : FS Char) : Res (Bool × FS Char) := do
  let (l, s) ← lookTwo s c!"standalone=\"" c!"standalone='"
  match l with
  | .yes _ => do
    let (v, s) ← headerValue s
    let b ← isYes v
    .ok (b, s)
  | _ => .ok (false, s)

/-- An `axl_stream_inspect` tested for not being 0 (src/axl_doc.c:618, 632, 642). -/
def notZero : Stream.Look → Bool
  | .no => false
  | _ => true

/-- The end of the header, after the version (src/axl_doc.c:648-704). -/
def declEnd (s : FS Char) : Res (Option (List Char) × Bool × FS Char) := do
  let s ← skip s
  let (enc, s) ← encoding s
  let s ← skip s
  let (alone, s) ← standalone s
  let s ← skip s
  let (found, s) ← eat s c!"?>"
  if found then .ok (enc, alone, s) else .error

/-- What is in the header after "<?" (src/axl_doc.c:620-704). -/
def xmlDecl (s : FS Char) : Res (Option (List Char) × Bool × FS Char) := do
  let (found, s) ← eat s c!"xml"
  if found then do
    let s ← skip s
    let (l, s) ← look s c!"version="
    if notZero l then do
      let s ← skip s
      let (l, s) ← lookTwo s c!"\"1.0\"" c!"'1.0'"
      if notZero l then declEnd s else .error
    else .error
  else .error

/-- The document type declaration is skipped up to the first ">" (src/axl_doc.c:718-727). -/
def doctype (st : St) (s : FS Char) : Res (St × FS Char) := do
  let (found, s) ← eat s c!"<!DOCTYPE"
  if found then do
    let (_, s) ← untilRef [c!">"] s
    comments false (left s + 1) st s
  else .ok (st, s)

/-- The mark at the beginning (src/axl_doc.c:612-615): `axl_stream_check` reads the buffer, without refilling it
(src/axl_stream.c:2113-2122). -/
def skipBom (s : FS Char) : FS Char :=
  if ['ï', '»', '¿'].isPrefixOf (s.data.drop s.index) then { s with index := 3 } else s

/-- `__axl_doc_parse_xml_header` (src/axl_doc.c:597-731). -/
def parseHeader (s : FS Char) : Res (Option (List Char) × Bool × St × FS Char) := do
  let (l, s) ← look (skipBom s) c!"<?"
  if notZero l then do
    let (enc, alone, s) ← xmlDecl s
    let (st, s) ← comments false (left s + 1) St.new s
    let (st, s) ← doctype st s
    .ok (enc, alone, st, s)
  else do
    let (st, s) ← doctype St.new s
    .ok (none, false, st, s)

/-- The root and all it has (src/axl_doc.c:1155-1291). -/
def body (st : St) (s : FS Char) : Res St := do
  let (st, s, empty) ← parseNode st s
  if empty then .ok st else mainLoop (left s + 1) st s

/-- `__axl_doc_parse_common` (src/axl_doc.c:1118-1317) over a stream. -/
def parseStream (s : FS Char) : Res Doc := do
  let (enc, alone, st, s) ← parseHeader s
  let st ← body st s
  if !st.opened.isEmpty then .error
  else
    match st.root with
    | none => .ub
    | some root => .ok ⟨enc, alone, root, st.pis, st.noValue⟩

/-- `STREAM_BUFFER_SIZE` (src/axl_stream.c:68). -/
def bufferSize : Nat := 8192

/-- `axl_doc_parse_from_file` (src/axl_doc.c:1916-1920) with a file that is there, or `none` when it cannot be opened
(src/axl_stream.c:539-544). -/
def parseFile (file : Option (List Char)) : Res Doc :=
  match file with
  | none => .error
  | some text => parseStream (FileStream.new ⟨text, []⟩ bufferSize)

end FileParse
end Axl
