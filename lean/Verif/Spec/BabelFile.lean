/-
What a document in a file is asked for to be read, after `axl_babel_init`, as in memory.
-/
import Verif.Spec.BabelParse
import Verif.Spec.FileParse

namespace Axl
namespace Spec
namespace Encoding

/-- No part of ISO 8859 is declared: behind no `encoding=` and its quote is the name of one. -/
def NoIso (s : List Char) : Prop :=
  ∀ part ∈ Iso8859.parts, ∀ pre q enc rest, s = pre ++ c!"encoding=" ++ q :: (enc ++ rest) → ¬ Named enc (isoName part)

/-- All bytes have 7 bits. -/
def SevenBits (s : List Char) : Prop := ∀ c ∈ s, c.toNat < 128

end Encoding
end Spec
end Axl
