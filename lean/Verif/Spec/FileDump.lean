/-
Documents whose text, in a file, is read as in memory.
-/
import Verif.Spec.RoundTrip

namespace Axl
namespace Spec
namespace FileDump
open Xml

/-- A text that does not begin with white space and has no `>`; the other items only if they are allowed. -/
def CalmLeaf (misc : Bool) : Leaf → Prop
  | .content s => '>' ∉ s ∧ ∀ c ∈ s.head?, ¬ White c
  | .cdata s => misc = true ∧ '>' ∉ s
  | .comment s => misc = true ∧ '>' ∉ s
  | .pi p => misc = true ∧ ∀ s ∈ p.content, '>' ∉ s
  | .ref s => '>' ∉ s

mutual
/-- No value, text or other item of the node has a `>`, and no text begins with white space; without comments, instructions
and CDATA sections, and without `<` in the values, if they are not allowed. -/
def Calm (misc : Bool) : Node → Prop
  | .mk _ attrs items =>
    (∀ n v, attrs.getValue n = some (some v) → '>' ∉ v ∧ (misc = false → '<' ∉ v)) ∧ CalmItems misc items
def CalmItems (misc : Bool) : Items → Prop
  | .nil => True
  | .node n next => Calm misc n ∧ CalmItems misc next
  | .leaf l next => CalmLeaf misc l ∧ CalmItems misc next
end

/-- The same of a document: the name of its encoding has no `<` and no `>`. -/
def CalmDoc (misc : Bool) (d : Doc) : Prop := (∀ e ∈ d.encoding, '<' ∉ e ∧ '>' ∉ e) ∧ Calm misc d.root

end FileDump
end Spec
end Axl
