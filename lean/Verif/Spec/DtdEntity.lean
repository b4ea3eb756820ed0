/-
The parameter entities that the text of a DTD declares, and when they are not recursive.
-/
import Verif.Spec.DtdText
import Verif.Spec.Xml

namespace Axl.Dtd

/-- The text declares a parameter entity with a value: `<!ENTITY % name 'value'`. -/
def DeclaresEntity (text name value : List Char) : Prop :=
  ∃ a g1 g2 g3 q b, text = a ++ c!"<!ENTITY" ++ g1 ++ '%' :: g2 ++ name ++ g3 ++ q :: value ++ q :: b ∧ (q = '"' ∨ q = '\'') ∧ q ∉ value ∧
    name ≠ [] ∧ g3 ≠ [] ∧ (∀ c ∈ name, ¬ Spec.Xml.White c) ∧ (∀ c ∈ g1, Spec.Xml.White c) ∧ (∀ c ∈ g2, Spec.Xml.White c) ∧ (∀ c ∈ g3, Spec.Xml.White c)

/-- No recursion (XML 1.0, 4.1): a parameter entity that is declared has, in its value, references only to entities that are
below it: each entity can be given a height. -/
def NotRecursive (text : List Char) : Prop :=
  ∃ height : List Char → Nat, ∀ name value, DeclaresEntity text name value →
    ∀ a n b v, value = a ++ '%' :: n ++ ';' :: b → DeclaresEntity text n v → height n < height name

/-- The parameter entities declared have no markup in their values. -/
def NoMarkup (text : List Char) : Prop := ∀ name value, DeclaresEntity text name value → '<' ∉ value

end Axl.Dtd
