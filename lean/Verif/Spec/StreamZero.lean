/-
A text cut at each separator.
-/
import Verif.Model.Lit

namespace Axl
namespace Spec.StreamZero

/-- The parts of a text between separators; at least one. -/
def split (sep : Char) : List Char → List (List Char)
  | [] => [[]]
  | c :: t =>
    if c = sep then [] :: split sep t
    else
      match split sep t with
      | [] => [[c]]
      | p :: ps => (c :: p) :: ps

end Spec.StreamZero
end Axl
