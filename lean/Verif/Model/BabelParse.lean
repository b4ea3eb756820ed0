/-
Model of `axl_doc_parse` for a document in memory after `axl_babel_init`: the detection of the encoding
(babel/axl_babel.c:124-220), the configuration of the stream with the encoding of the header
(src/axl_doc.c:524-575, babel/axl_babel.c:352-455) and the parse of what the stream gives after it.

The parser is that of `Axl.Parse`, and the bytes of the document are `Char`s as there; `bytes` and
`chars` go from one form to the other.  Simplifications: those of `Axl.Parse`; `axl_malloc` never fails.
-/
import Verif.Model.FileStream
import Verif.Model.BabelTables

namespace Axl
namespace Babel
open Str Stream Parse FileStream

/-- The bytes as the functions of babel see them (`unsigned char`). -/
def bytes (s : List Char) : List UInt8 := s.map fun c => UInt8.ofNat c.toNat

/-- The bytes as the parser sees them. -/
def chars (b : List UInt8) : List Char := b.map fun v => Char.ofNat v.toNat

/-- What `axl_babel_detect_codification` answers: `axl_false` without an error, `axl_false` with one, or
`axl_true` with the encoding detected, if any, and the index of the stream. -/
inductive Detected where
  | short
  | unknown
  | found (encoding : Option (List Char)) (index : Nat)
deriving DecidableEq, Repr

/-- `axl_stream_inspect_code` (src/axl_stream.c:692-698) with the index of the stream at 0, for a place inside. -/
def code (s : List Char) (value : Nat) (offset : Nat) : Bool := s[offset]? == some (Char.ofNat value)

/-- `axl_babel_detect_codification` (babel/axl_babel.c:124-220). -/
def detect (s : List Char) : Detected :=
  if s.length < 4 then .short
  else if code s 0xEF 0 && code s 0xBB 1 && code s 0xBF 2 then .found (some c!"utf8") 3
  else if code s 0xFF 0 && code s 0xFE 1 then .found (some c!"utf16") 2
  else if code s 0xFF 0 && code s 0xFE 1 && code s 0 2 && code s 0 3 then .found (some c!"utf32") 4
  else if code s 0x3C 0 && code s 0x3F 1 && code s 0x78 2 && code s 0x6D 3 then .found none 0
  else if code s 0x3C 0 && !code s 0x3C 1 && !code s 0x3E 1 then .found none 0
  else .unknown

/-- The mark at the beginning (src/axl_doc.c:612-615): it is looked for at the index of the stream, and the index is
set to 3. -/
def afterMark (s : List Char) (index : Nat) : List Char :=
  match eat (s.drop index) ['ï', '»', '¿'] with
  | some _ => s.drop 3
  | none => s.drop index

/-- The declaration and the comments after it (src/axl_doc.c:618-709): the encoding, the standalone configuration, the
state of the parser and the rest of the stream. -/
def declaration (s : List Char) : Res (Option (List Char) × Bool × St × List Char) :=
  match notZero (inspect s c!"<?") s with
  | some s => do
    let (enc, alone, s) ← xmlDecl s
    let (st, s) ← comments false (s.length + 1) St.new s
    .ok (enc, alone, st, s)
  | none => .ok (none, false, St.new, s)

/-- The encoding of the header without white spaces, `-` and `_` and in lower case (src/axl_doc.c:530-544): the text
before the first NUL; `none` is undefined behaviour. -/
def normalized (enc : List Char) : Option (List Char) := do
  let (b, _) ← trimWithSize (enc ++ [NUL])
  let b ← remove b c!"-" false
  let b ← remove b c!"_" false
  some (toStr (b.map toLower))

/-- What `axl_babel_configure_encoding` sets in the stream. -/
inductive Config where
  | plain
  | checked
  | decoded (table : List (List UInt8))

/-- The table for the encoding (babel/axl_babel.c:369-427): the last one that is set. -/
def tableFor (enc : Option (List Char)) : Option (List (List UInt8)) :=
  if cmp enc (some c!"iso885915") then tableOf 15
  else if cmp enc (some c!"iso88599") then tableOf 9
  else if cmp enc (some c!"iso88598") then tableOf 8
  else if cmp enc (some c!"iso88597") then tableOf 7
  else if cmp enc (some c!"iso88596") then tableOf 6
  else if cmp enc (some c!"iso88595") then tableOf 5
  else if cmp enc (some c!"iso88594") then tableOf 4
  else if cmp enc (some c!"iso88593") then tableOf 3
  else if cmp enc (some c!"iso88592") then tableOf 2
  else if cmp enc (some c!"iso88591") then tableOf 1
  else none

/-- `axl_babel_configure_encoding` (babel/axl_babel.c:352-455): with an encoding detected and none in the header, the
assignment (babel/axl_babel.c:365-366) changes the one detected, that is not used after it. -/
def configure (enc _detected : Option (List Char)) : Config :=
  if cmp enc (some c!"utf8") then .checked
  else
    match tableFor enc with
    | none => .plain
    | some t => .decoded t

/-- The stream after the configuration (src/axl_stream.c:3651-3703, 3725-3751), from what is left of it, which is all its
room: `axl_stream_new` makes `buffer_size` the size of the content (src/axl_stream.c:573).  The
inner `none` is `axl_false`: the check does not fill the error (src/axl_stream.c:3615-3631, babel/axl_babel.c:329). -/
def setUp (config : Config) (s : List Char) : Res (Option (List Char)) :=
  match config with
  | .plain => .ok (some s)
  | .checked => do
    let v ← Res.ofOption (checkUtf8 (some (bytes s)) s.length)
    .ok (if v = .good then some s else none)
  | .decoded t => do
    let f ← setupDecode (isoDecoder (entry t)) (newMem (bytes s))
    .ok (some (chars (f.data.drop f.index)))

/-- `axl_doc_configure_encoding` (src/axl_doc.c:524-575) with the handler of babel. -/
def configureEncoding (enc detected : Option (List Char)) (s : List Char) : Res (Option (List Char)) :=
  match enc with
  | none => setUp (configure none detected) s
  | some e => do
    let n ← Res.ofOption (normalized e)
    setUp (configure (some n) detected) s

/-- From the document type declaration to the end (src/axl_doc.c:718-731, 1151-1317).  The encoding of the document is
`utf-8` (src/axl_doc.c:568-570). -/
def remaining (alone : Bool) (st : St) (s : List Char) : Res Doc := do
  let (st, s) ← doctype st s
  let st ← body st s
  if !st.opened.isEmpty then .error
  else
    match st.root with
    | none => .ub
    | some root => .ok ⟨some c!"utf-8", alone, root, st.pis, st.noValue⟩

/-- `axl_doc_parse` (src/axl_doc.c:1849, 1118-1317) after `axl_babel_init` (babel/axl_babel.c:63-82): `.ok none` is the
NULL result without error. -/
def parse (s : List Char) : Res (Option Doc) :=
  match detect s with
  | .short => .ok none
  | .unknown => .error
  | .found detected index => do
    let (enc, alone, st, s) ← declaration (afterMark s index)
    let r ← configureEncoding enc detected s
    match r with
    | none => .ok none
    | some s => do
      let d ← remaining alone st s
      .ok (some d)

end Babel
end Axl
