/-
A program that reads the content model of an element through the functions of the API, and writes down what it sees.
It looks at nothing else.
-/
import Verif.Model.DtdWalk

namespace Axl.Dtd

/-- What the number that `axl_dtd_item_list_type` gives stands for (src/axl_decl.h:333-352). -/
def kindNamed : Int → Option Kind
  | 0 => some .undef
  | 1 => some .choice
  | 2 => some .seq
  | _ => none

/-- The program, for one item: a name with its repetition, or the items of a list, one after the other. -/
def readItem : Nat → Option Part → Option Part
  | 0, _ => none
  | fuel + 1, item =>
    if itemType item = 3 then do
      let t ← itemRepeat item
      let n ← itemValue item
      some (.node t n)
    else if itemType item = 2 then do
      let g := itemGroup item
      let k ← kindNamed (groupType g)
      let t ← groupRepeat g
      let items ← (List.range (groupCount g).toNat).mapM fun (i : Nat) => readItem fuel (groupNode g i)
      some (.list k t items)
    else none

/-- The program, for an element: `none` in the answer when it has no content model. -/
def readElement (fuel : Nat) (e : Option Element) : Option (Option Content) :=
  match itemListOf e with
  | none => some none
  | some g => do
    let k ← kindNamed (groupType g)
    let t ← groupRepeat g
    let items ← (List.range (groupCount g).toNat).mapM fun (i : Nat) => readItem fuel (groupNode g i)
    some (some ⟨k, t, items⟩)

/-- The number of the sort of content (src/axl_decl.h:393-430). -/
def sortNumber : ElementType → Nat
  | .empty => 1
  | .any => 2
  | .mixed _ => 3
  | .children _ | .unclosed _ => 4
  | .pcdata _ => 5

end Axl.Dtd
