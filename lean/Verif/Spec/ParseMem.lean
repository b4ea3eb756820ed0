/-
What the caller of a parse finds in memory after it, said without the functions of the model.
-/
import Verif.Model.ParseMem
import Verif.Spec.Xml

namespace Axl
namespace Spec
namespace ParseMem
open Blocks

/-- The text given to a parse, as memory and a size: with size -1 it ends at the first NUL, otherwise its size is given. -/
def Given (source : List Char) (size : Int) (src : List Char) : Prop :=
  (size = -1 ∧ Char.ofNat 0 ∉ src ∧ ∃ rest, source = src ++ Char.ofNat 0 :: rest) ∨
  (size = src.length ∧ ∃ rest, source = src ++ rest)

/-- Nothing that the parse allocated is there: not the stream, not the document, no block. -/
def AllReleased (w : World) : Prop := w.stream = none ∧ w.doc = none ∧ ∀ i, w.heap i = none

/-- Nothing is there but one block, that no one will release. -/
def OneLeft (w : World) : Prop :=
  w.stream = none ∧ w.doc = none ∧ ∃ i b, w.heap i = some b ∧ ∀ j, j ≠ i → w.heap j = none

/-- The text ends with an instruction and, after it, a name that is not in a tag. -/
def StrayName (src : List Char) : Prop :=
  ∃ before blank name, src = before ++ c!"?>" ++ blank ++ name ∧ Spec.Xml.Blank blank ∧ name ≠ [] ∧ name.head? ≠ some '<' ∧
    ∀ x ∈ name, x ≠ '>' ∧ ¬ Spec.Xml.White x

/-- Only the document and what it owns is there: the blocks of its string factory and its encoding. -/
def OnlyDocument (w : World) : Prop :=
  w.stream = none ∧ ∃ d, w.doc = some d ∧ ∀ i b, w.heap i = some b → b.factory = true ∨ d.encoding = some i

/-- What an error tells about the place of the text where it was found: the size of the text, a place in it,
the ten bytes that follow that place, and bytes that are in the text from ten bytes before it.  Both are cut at a NUL. -/
def PlaceIn (src : List Char) (p : Place) : Prop :=
  p.size = src.length ∧ p.index ≤ src.length ∧
  p.following = ((src.drop p.index).take 10).takeWhile (· ≠ Char.ofNat 0) ∧
  p.near <+: (src.drop (p.index - 10)).take 21

/-- An error about the text: its code is negative, it has a message, and the place it tells is that of the text. -/
def ErrorAbout (src : List Char) (e : Err) : Prop :=
  e.code < 0 ∧ e.text ≠ [] ∧ ∀ p, e.place = some p → PlaceIn src p

/-- One error was stored, if the caller asked for it. -/
def OneError (src : List Char) (ask : Bool) (w : World) : Prop :=
  if ask then ∃ e, w.errors = some [e] ∧ ErrorAbout src e else w.errors = none

/-- No error was stored. -/
def NoError (ask : Bool) (w : World) : Prop := w.errors = if ask then some [] else none

end ParseMem
end Spec
end Axl
