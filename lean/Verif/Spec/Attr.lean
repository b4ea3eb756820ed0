/-
What a user expects from the attributes of a node: a map from names to values where the first value
set for a name stays until the name is removed.
-/
import Verif.Spec.Escape

namespace Axl.Spec.Attr

inductive Op where
  /-- axl_node_set_attribute -/
  | set (name value : List Char)
  /-- axl_node_set_attribute_ref and axl_node_set_attribute_from_factory: already encoded text -/
  | setRef (name value : List Char) (fromFactory : Bool)
  /-- axl_node_remove_attribute -/
  | remove (name : List Char)

/-- The text with the five special characters replaced by their entities. -/
def encode (s : List Char) : List Char :=
  s.flatMap fun c => ((Escape.entities.find? fun e => e.2 == c).map (·.1)).getD [c]

/-- None of the five special characters is in the text. -/
def Plain (s : List Char) : Prop := ∀ c ∈ s, ∀ e ∈ Escape.entities, c ≠ e.2

/-- Names and encoded values after a history (newest operation first). -/
def pairs : List Op → List (List Char × List Char)
  | [] => []
  | .set n v :: past =>
    if n = [] ∨ (pairs past).any (fun p => p.1 == encode n) then pairs past
    else (encode n, encode v) :: pairs past
  | .setRef n v _ :: past =>
    if (pairs past).any (fun p => p.1 == n) then pairs past else (n, v) :: pairs past
  | .remove n :: past => (pairs past).filter fun p => p.1 != n

/-- The encoded value of a name. -/
def value (past : List Op) (name : List Char) : Option (List Char) :=
  ((pairs past).find? fun p => p.1 == name).map (·.2)

/-- The strings given with an operation. -/
def Op.texts : Op → List (List Char)
  | .set n v => [n, v]
  | .setRef n v _ => [n, v]
  | .remove n => [n]

/-- The name given to a new attribute. -/
def Op.newName : Op → Option (List Char)
  | .set n _ => some n
  | .setRef n _ _ => some n
  | .remove _ => none

/-- The name given to a new attribute with a function that does not check it. -/
def Op.refName : Op → Option (List Char)
  | .setRef n _ _ => some n
  | _ => none

/-- No string of the history has a terminator inside. -/
def NoNul (nul : Char) (ops : List Op) : Prop := ∀ op ∈ ops, ∀ s ∈ op.texts, nul ∉ s

/-- No attribute is given an empty name with a function that does not check it. -/
def Named (ops : List Op) : Prop := ∀ op ∈ ops, op.refName ≠ some []

/-- The names set have nothing to encode. -/
def PlainNames (ops : List Op) : Prop := ∀ op ∈ ops, ∀ n ∈ op.newName, Plain n

/-- Whenever a removal takes the node from eleven attributes to ten, the names and values that stay
have nothing to encode. -/
def PlainAtTen : List Op → Prop
  | [] => True
  | .remove n :: past =>
    PlainAtTen past ∧ ((pairs past).length = 11 → (∃ p ∈ pairs past, p.1 = n) →
      ∀ p ∈ pairs past, p.1 ≠ n → Plain p.1 ∧ Plain p.2)
  | _ :: past => PlainAtTen past

instance (s : List Char) : Decidable (Plain s) := inferInstanceAs (Decidable (∀ c ∈ s, ∀ e ∈ Escape.entities, c ≠ e.2))
instance (nul : Char) (ops : List Op) : Decidable (NoNul nul ops) :=
  inferInstanceAs (Decidable (∀ op ∈ ops, ∀ s ∈ op.texts, nul ∉ s))
instance (ops : List Op) : Decidable (Named ops) := inferInstanceAs (Decidable (∀ op ∈ ops, op.refName ≠ some []))
instance (ops : List Op) : Decidable (PlainNames ops) := inferInstanceAs (Decidable (∀ op ∈ ops, ∀ n ∈ op.newName, Plain n))
instance decidablePlainAtTen : ∀ past : List Op, Decidable (PlainAtTen past)
  | [] => inferInstanceAs (Decidable True)
  | .set _ _ :: past => decidablePlainAtTen past
  | .setRef _ _ _ :: past => decidablePlainAtTen past
  | .remove n :: past =>
    have := decidablePlainAtTen past
    inferInstanceAs (Decidable (PlainAtTen past ∧ ((pairs past).length = 11 → (∃ p ∈ pairs past, p.1 = n) →
      ∀ p ∈ pairs past, p.1 ≠ n → Plain p.1 ∧ Plain p.2)))

end Axl.Spec.Attr
