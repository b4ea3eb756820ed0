/-
What escaping should do.
-/
namespace Axl.Spec.Escape

/-- The five default entities and the characters they stand for. -/
def entities : List (List Char × Char) :=
  [("&apos;".toList, '\''), ("&quot;".toList, '"'), ("&amp;".toList, '&'), ("&gt;".toList, '>'), ("&lt;".toList, '<')]

/-- No markup character is left: no angle bracket, no quote, and every ampersand begins one of the
default entities. -/
def NoMarkup (t : List Char) : Prop :=
  (∀ c ∈ t, c ≠ '<' ∧ c ≠ '>' ∧ c ≠ '\'' ∧ c ≠ '"') ∧
  (∀ a b, t = a ++ '&' :: b → ∃ e ∈ entities, e.1 <+: '&' :: b)

/-- `out` is the text with its default entities replaced, from left to right; anything else stays. -/
inductive Decodes : List Char → List Char → Prop
  | nil : Decodes [] []
  | entity {e t out} : e ∈ entities → Decodes t out → Decodes (e.1 ++ t) (e.2 :: out)
  | other {c t out} : (∀ e ∈ entities, ¬ e.1 <+: c :: t) → Decodes t out → Decodes (c :: t) (c :: out)

/-- The `]]>` that ends a CDATA section is not in the text. -/
def NoCdataEnd (t : List Char) : Prop := ¬ "]]>".toList <:+: t

end Axl.Spec.Escape
