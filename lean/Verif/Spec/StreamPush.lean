/-
What a stream that can be pushed back is: a text, a place in it, and how many characters the last look that succeeded saw.
-/
import Verif.Model.StreamPush

namespace Axl
namespace Spec
namespace StreamPush
open Axl.StreamPush Str

/-- The text, how much of it was read, and how much was seen and is not accepted yet. -/
structure View where
  text : List Char
  read : Nat
  seen : Nat

/-- What is left to read. -/
def View.left (v : View) : List Char := v.text.drop v.read

/-- What was seen counts as read. -/
def View.accept (v : View) : View := ⟨v.text, v.read + v.seen, 0⟩

/-- A look: -1 if less is left than the chunk has, 1 if what is left begins with it, 0 if not. -/
def View.look (v : View) (chunk : List Char) : Int × View :=
  if v.left.length < chunk.length then (-1, v)
  else if chunk ≠ [] ∧ chunk <+: v.left then (1, ⟨v.text, v.read, chunk.length⟩)
  else (0, v)

/-- What each call does. -/
def View.call (v : View) : Call → Int × View
  | .push content size => (0, View.accept ⟨content.take size ++ v.left, 0, v.seen⟩)
  | .peek chunk => v.look chunk
  | .inspect chunk => if (v.look chunk).1 = 1 then (1, (v.look chunk).2.accept) else v.look chunk
  | .accept => (0, v.accept)
  | .move index => (0, ⟨v.text, index, 0⟩)
  | .step bytes => (0, ⟨v.text, v.read + v.seen + bytes, 0⟩)

def View.calls (v : View) : List Call → List Int × View
  | [] => ([], v)
  | c :: cs => ((v.call c).1 :: ((v.call c).2.calls cs).1, ((v.call c).2.calls cs).2)

/-- The call is made as it is meant: as many characters as the content has are pushed, at most; chunks are C strings;
places are within the text. -/
def View.fits (v : View) : Call → Prop
  | .push content size => size ≤ content.length
  | .peek chunk => NUL ∉ chunk
  | .inspect chunk => NUL ∉ chunk
  | .accept => True
  | .move index => index ≤ v.text.length
  | .step bytes => bytes + v.seen ≤ v.left.length

def View.fitsAll (v : View) : List Call → Prop
  | [] => True
  | c :: cs => v.fits c ∧ (v.call c).2.fitsAll cs

end StreamPush
end Spec
end Axl
