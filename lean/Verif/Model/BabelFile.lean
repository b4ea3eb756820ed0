/-
Model of `axl_doc_parse_from_file` after `axl_babel_init`: the parser of `Verif.Model.FileParse` over the file, with
the detection and the configuration of the encoding of `Verif.Model.BabelParse` done on its stream, so that what
is read later is checked, or decoded, as it is read.

Simplifications: those of both.  With a decoder, the value `op_result` of `axl_stream_prebuffer` before the first
call to it is 0, and a byte left behind the content of the buffer is undefined behaviour, as in
`Verif.Model.FileStream`.
-/
import Verif.Model.FileParse
import Verif.Model.BabelParse

namespace Axl
namespace BabelFile
open Str Parse FileParse
open FileStream (FS Source Decoder setupCheck setupDecode isoDecoder)
open Babel (Config bytes chars)

/-- The declaration and the comments after it (src/axl_doc.c:612-709). -/
def declaration (s : FS Char) : Res (Option (List Char) × Bool × St × FS Char) := do
  let (l, s) ← look (skipBom s) c!"<?"
  if FileParse.notZero l then do
    let (enc, alone, s) ← FileParse.xmlDecl s
    let (st, s) ← FileParse.comments false (left s + 1) St.new s
    .ok (enc, alone, st, s)
  else .ok (none, false, St.new, s)

/-- `axl_babel_utf8_check` (babel/axl_babel.c:322-330), as `axl_stream_content_check` reads its answer
(src/axl_stream.c:3615-3631). -/
def isUtf8 (b : List Char) : Bool := Babel.checkUtf8 (some (bytes b)) b.length == some .good

/-- The decoder for a table (babel/axl_babel.c:252-316), over the bytes as the parser sees them. -/
def decoder (table : List (List UInt8)) : Decoder Char := fun source room =>
  (isoDecoder (Babel.entry table) (bytes source) room).map fun r => (chars r.1, chars r.2)

/-- What is set in the stream (src/axl_stream.c:3651-3703, 3725-3751); the inner `none` is `axl_false`. -/
def setUp (config : Config) (s : FS Char) : Res (Option (FS Char)) :=
  match config with
  | .plain => .ok (some s)
  | .checked => .ok (setupCheck isUtf8 s)
  | .decoded t => do
    let s ← setupDecode (decoder t) s
    .ok (some s)

/-- `axl_doc_configure_encoding` (src/axl_doc.c:524-575) with the handler of babel. -/
def configureEncoding (enc detected : Option (List Char)) (s : FS Char) : Res (Option (FS Char)) :=
  match enc with
  | none => setUp (Babel.configure none detected) s
  | some e => do
    let n ← Res.ofOption (Babel.normalized e)
    setUp (Babel.configure (some n) detected) s

/-- From the document type declaration to the end (src/axl_doc.c:718-731, 1151-1317), see `Babel.remaining`. -/
def remaining (alone : Bool) (st : St) (s : FS Char) : Res Doc := do
  let (st, s) ← FileParse.doctype st s
  let st ← FileParse.body st s
  if !st.opened.isEmpty then .error
  else
    match st.root with
    | none => .ub
    | some root => .ok ⟨some c!"utf-8", alone, root, st.pis, st.noValue⟩

/-- `__axl_doc_parse_common` (src/axl_doc.c:1118-1317) over a stream, after `axl_babel_init`: the detection
(babel/axl_babel.c:124-220) looks at the first bytes of the buffer, without refilling it
(src/axl_stream.c:692-698). -/
def parseStream (s : FS Char) : Res (Option Doc) :=
  match Babel.detect s.data with
  | .short => .ok none
  | .unknown => .error
  | .found detected index => do
    let (enc, alone, st, s) ← declaration { s with index := index }
    let r ← configureEncoding enc detected s
    match r with
    | none => .ok none
    | some s => do
      let d ← remaining alone st s
      .ok (some d)

/-- `axl_doc_parse_from_file` (src/axl_doc.c:1916-1920) after `axl_babel_init` (babel/axl_babel.c:63-82): `none` is a file
that cannot be opened, `.ok none` is the NULL result without error. -/
def parseFile (file : Option (List Char)) : Res (Option Doc) :=
  match file with
  | none => .error
  | some text => parseStream (FileStream.new ⟨text, []⟩ bufferSize)

end BabelFile
end Axl
