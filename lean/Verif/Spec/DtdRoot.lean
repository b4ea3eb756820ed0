/-
What a user of axl_dtd_get_root relies on.
-/
import Verif.Spec.DtdText

namespace Axl.Dtd

/-- No declared element has `name` in its content. -/
def NotInside (es : List Element) (name : List Char) : Prop := ∀ e ∈ es, ¬ e.Mentions name

/-- By the declarations, an element `c` may be somewhere inside an element `p`, or is `p`. -/
inductive Contains (es : List Element) : Element → Element → Prop where
  | self (p : Element) : Contains es p p
  | inside (p m c : Element) : p ∈ es → m ∈ es → p.Mentions m.name → Contains es m c → Contains es p c

end Axl.Dtd
