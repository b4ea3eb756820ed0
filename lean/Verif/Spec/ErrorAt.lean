/- What an error that has a stream tells of it. -/
import Verif.Model.ErrorAt

namespace Axl.Spec.Err
open Axl.Err

/-- The stream has `size` bytes of text in memory and is at `index`. -/
structure Inside (s : At.Stream) (text : List Char) (index : Nat) : Prop where
  memory : text <+: s.memory
  size : s.size = text.length
  at_ : s.index = index
  le : index ≤ text.length
  noNul : Str.NUL ∉ text

/-- The text from ten bytes before the place to ten bytes after it; to the end if only one byte is left behind those. -/
def around (text : List Char) (index : Nat) : List Char :=
  (text.drop (index - 10)).take ((if index + 11 = text.length then index + 11 else index + 10) - (index - 10))

/-- The ten bytes that come next, or what there is. -/
def next (text : List Char) (index : Nat) : List Char := (text.drop index).take 10

end Axl.Spec.Err
