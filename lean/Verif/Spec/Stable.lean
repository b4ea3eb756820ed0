/-
Documents as they are written whose trees can be written and read again.
-/
import Verif.Spec.Source

namespace Axl.Spec.Source
open Spec.Xml Spec.RoundTrip Spec.Dump

mutual
/-- Every processing instruction in the element has a content that can be written again: with a name, and not
ending in a blank. -/
def FullInstructions : Element → Prop
  | .empty _ _ _ => True
  | .pair _ _ _ content _ => FullInstructionsParts content
def FullInstructionsParts : Parts → Prop
  | .nil => True
  | .text _ next => FullInstructionsParts next
  | .comment _ next => FullInstructionsParts next
  | .pi _ p next => FineLeaf (.pi p) ∧ FullInstructionsParts next
  | .cdata _ next => FullInstructionsParts next
  | .element e next => FullInstructions e ∧ FullInstructionsParts next
end

mutual
/-- No element without attributes has a content that begins with `/>`. -/
def NoSlash : Element → Prop
  | .empty _ _ _ => True
  | .pair _ attrs _ content _ => ¬ (attrs = [] ∧ c!"/>" <+: content.chars) ∧ NoSlashParts content
def NoSlashParts : Parts → Prop
  | .nil => True
  | .text _ next => NoSlashParts next
  | .comment _ next => NoSlashParts next
  | .pi _ _ next => NoSlashParts next
  | .cdata _ next => NoSlashParts next
  | .element e next => NoSlash e ∧ NoSlashParts next
end

mutual
/-- No element has more than ten attributes. -/
def FewAttributes : Element → Prop
  | .empty _ attrs _ => attrs.length ≤ 10
  | .pair _ attrs _ content _ => attrs.length ≤ 10 ∧ FewAttributesParts content
def FewAttributesParts : Parts → Prop
  | .nil => True
  | .text _ next => FewAttributesParts next
  | .comment _ next => FewAttributesParts next
  | .pi _ _ next => FewAttributesParts next
  | .cdata _ next => FewAttributesParts next
  | .element e next => FewAttributes e ∧ FewAttributesParts next
end

/-- There is an element, a comment or an instruction. -/
def hasMarks : Parts → Prop
  | .nil => False
  | .text _ next => hasMarks next
  | .cdata _ next => hasMarks next
  | .comment _ _ => True
  | .pi _ _ _ => True
  | .element _ _ => True

/-- Every text is white space. -/
def noTexts : Parts → Prop
  | .nil => True
  | .text t next => Blank t ∧ noTexts next
  | .comment _ next => noTexts next
  | .pi _ _ next => noTexts next
  | .cdata _ next => noTexts next
  | .element _ next => noTexts next

mutual
/-- No text is beside an element, a comment or an instruction. -/
def Unmixed : Element → Prop
  | .empty _ _ _ => True
  | .pair _ _ _ content _ => (hasMarks content → noTexts content) ∧ UnmixedParts content
def UnmixedParts : Parts → Prop
  | .nil => True
  | .text _ next => UnmixedParts next
  | .comment _ next => UnmixedParts next
  | .pi _ _ next => UnmixedParts next
  | .cdata _ next => UnmixedParts next
  | .element e next => Unmixed e ∧ UnmixedParts next
end

end Axl.Spec.Source
