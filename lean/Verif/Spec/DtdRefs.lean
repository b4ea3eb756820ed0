/-
References to parameter entities in the lists of attributes of a DTD: what a list says after every reference was
replaced by the value of its entity.

As in Spec/DtdSource.lean, texts are cut in their parts, white spaces included.
-/
import Verif.Spec.DtdSource

namespace Axl.Dtd.Source
open Spec.Xml Spec.RoundTrip

/-- The value of a parameter entity: that of the first declaration for its name, as XML asks. -/
def Value (es : List Entity) (name v : List Char) : Prop :=
  ∃ before after, es = before ++ ⟨name, .parameter, some v⟩ :: after ∧ ∀ e ∈ before, ¬ (e.type = .parameter ∧ e.name = name)

/-- A text that begins with something that is neither white space nor a reference. -/
def PlainText (v : List Char) : Prop := ∃ c r, v = c :: r ∧ ¬ White c ∧ c ≠ '%'

/-- The second text is the first one, from the end of the name of an element to the ">" of an ATTLIST, with each
reference to a parameter entity replaced by the value of the entity and a space, and so for the references in the values.
A reference is at the place of the type of an attribute; what it stands for may be the type alone, the rest of the
definition, or that and more definitions. -/
inductive Expands (es : List Entity) : List Char → List Char → Prop
  | done (gapEnd : List Char) (hg : Blank gapEnd) : Expands es (gapEnd ++ c!">") (gapEnd ++ c!">")
  | definition (a : AttDef) (ha : a.Valid) (s t : List Char) (next : Expands es s t) : Expands es (a.chars ++ s) (a.chars ++ t)
  | reference (gap name gapRef entity v s t : List Char) (hg : Gap gap) (hn : DtdName name) (hr : Gap gapRef) (he : DtdName entity)
      (hv : Value es entity v) (hp : PlainText v) (next : Expands es (gap ++ name ++ gapRef ++ v ++ ' ' :: s) t) :
      Expands es (gap ++ name ++ gapRef ++ '%' :: entity ++ ';' :: s) t

/-- A declaration, or an ATTLIST with references: its `body`, from the end of the name to the ">", and the
definitions and the white space that the body stands for. -/
inductive RefDecl where
  | plain (x : Decl)
  | attlist (gap name body : List Char) (defs : List AttDef) (gapEnd : List Char)

def RefDecl.chars : RefDecl → List Char
  | .plain x => x.chars
  | .attlist gap name body _ _ => c!"<!ATTLIST" ++ gap ++ name ++ body

/-- The declaration without references. -/
def RefDecl.expanded : RefDecl → Decl
  | .plain x => x
  | .attlist gap name _ defs gapEnd => .attlist gap name defs gapEnd

/-- A DTD with references. -/
structure RefSubset where
  decls : List (List Char × RefDecl)
  tail  : List Char

def RefSubset.chars (x : RefSubset) : List Char := x.decls.flatMap (fun p => p.1 ++ p.2.chars) ++ x.tail

/-- The DTD without references. -/
def RefSubset.expanded (x : RefSubset) : Subset := ⟨x.decls.map fun p => (p.1, p.2.expanded), x.tail⟩

/-- Each declaration is written as XML asks after the references in it were replaced by the values of the entities that
were declared before it. -/
structure RefSubset.Written (x : RefSubset) : Prop where
  expanded : x.expanded.Written
  bodies   : ∀ before after m gap name body defs gapEnd, x.decls = before ++ (m, .attlist gap name body defs gapEnd) :: after →
    Expands (RefSubset.expanded ⟨before, []⟩).entities body (defs.flatMap AttDef.chars ++ gapEnd ++ c!">")

end Axl.Dtd.Source
