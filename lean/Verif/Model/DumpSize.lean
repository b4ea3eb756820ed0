/-
The size of a document and its dump where there may be no document, or a document without root
(`axl_doc_create`, src/axl_doc.c:1367-1389, leaves the root NULL).  With a root they are those of
`Model/Dump.lean`.
-/
import Verif.Model.Dump

namespace Axl
namespace Dump
open Str

/-- A document whose root may be NULL. -/
structure DocPtr where
  encoding   : Option (List Char)
  standalone : Bool
  root       : Option Node
  noValue    : List (List Char × List Char)

/-- The document with its root. -/
def DocPtr.withRoot (d : DocPtr) (r : Node) : Doc := ⟨d.encoding, d.standalone, r, [], d.noValue⟩

/-- `__axl_doc_get_flat_size_common` (src/axl_doc.c:1400-1443): -1 for no document;
`axl_node_get_flat_size` gives -1 for no node (src/axl_node.c:4617), which is added. -/
def flatSizeCommon (doc : Option DocPtr) (pretty : Bool) (tabular : Int) : Option Int :=
  match doc with
  | none => some (-1)
  | some d =>
    match d.root with
    | some r => docSizeOf (d.withRoot r) pretty tabular
    | none => some (22 + (if pretty then 1 else 0) + (if d.standalone then 17 else 0) + encodingSize d.encoding + (-1))

/-- `axl_doc_get_flat_size` (src/axl_doc.c:1770-1774). -/
def flatSize (doc : Option DocPtr) : Option Int := flatSizeCommon doc false 0

/-- `axl_doc_get_flat_size_pretty` (src/axl_doc.c:1788-1792). -/
def flatSizePretty (doc : Option DocPtr) (tabular : Int) : Option Int := flatSizeCommon doc true tabular

/-- `__axl_doc_dump_common` (src/axl_doc.c:1449-1561): the header is written before
`axl_node_dump_at` gives -1 for no root (src/axl_node.c:5019). -/
def dumpPtr (doc : Option DocPtr) (pretty : Bool) (tabular : Int) : Option (Option (List Char × Int)) :=
  match doc with
  | none => some none
  | some d =>
    match d.root with
    | some r => dumpDoc (d.withRoot r) pretty tabular
    | none => do
      let size ← flatSizeCommon (some d) pretty tabular
      if size = -1 then some none
      else do
        let mem ← alloc size
        let o ← emit ⟨mem, 0⟩ c!"<?xml version='1.0' " 20 20
        let o ← dumpEncoding o d.encoding
        let o ← dumpStandalone o d.standalone
        let o ← emit o c!"?>" 2 2
        let o ← newlineIf pretty o
        let index : Int := -1
        if size ≠ index then some none else some (some (o.mem, size))

end Dump
end Axl
