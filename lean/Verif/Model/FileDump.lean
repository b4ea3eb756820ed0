/-
Documents and nodes written to files: what the functions that dump to a file ask of the system, and what
the system does with it.
-/
import Verif.Model.Dump

namespace Axl
namespace FileDump
open Dump

/-- What the system does with a file that is written: whether `fopen` opens it, how many bytes `fwrite`
takes at most, and how many of these are in the file at most after `fclose`; and what is in the file, if there is one, before
(the standard library, not in /repo). -/
structure System where
  opens  : Bool
  taken  : Nat
  kept   : Nat
  before : Option (List Char)

/-- From the `fopen` with mode "w" to the result (src/axl_doc.c:1655-1679, 1734-1757;
src/axl_node.c:4372-4395, 4429-4453): what is returned and what is in the file after it.  `fopen` leaves the file empty;
`fwrite` is given the block and its size, without the terminator; the result of `fclose` is not looked at. -/
def store (sys : System) (block : List Char) (size : Int) : Bool × Option (List Char) :=
  if !sys.opens then (false, sys.before)
  else
    let written := min sys.taken size.toNat
    ((written : Int) == size, some ((block.take written).take sys.kept))

/-- The beginning of the four functions: without a dump, the file is not opened (src/axl_doc.c:1646-1649, 1720-1726;
src/axl_node.c:4365-4366, 4423-4424). -/
def toFile (dump : Option (Option (List Char × Int))) (sys : System) : Option (Bool × Option (List Char)) :=
  match dump with
  | none => none
  | some none => some (false, sys.before)
  | some (some (block, size)) => some (store sys block size)

/-- `axl_doc_dump_to_file` (src/axl_doc.c:1637-1680). -/
def docToFile (d : Doc) (sys : System) : Option (Bool × Option (List Char)) := toFile (dumpDoc d false 0) sys

/-- `axl_doc_dump_pretty_to_file` (src/axl_doc.c:1709-1758). -/
def docPrettyToFile (d : Doc) (tabular : Int) (sys : System) : Option (Bool × Option (List Char)) :=
  toFile (dumpDoc d true tabular) sys

/-- `axl_node_dump_to_file` (src/axl_node.c:4356-4397): the dump asked for is the pretty one, without blanks. -/
def nodeToFile (n : Node) (sys : System) : Option (Bool × Option (List Char)) := toFile (dumpNode n true 0 0) sys

/-- `axl_node_dump_pretty_to_file` (src/axl_node.c:4413-4454). -/
def nodePrettyToFile (n : Node) (tabular : Int) (sys : System) : Option (Bool × Option (List Char)) :=
  toFile (dumpNode n true 0 tabular) sys

end FileDump
end Axl
