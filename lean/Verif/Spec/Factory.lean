/-
Memory handed out by an allocator over blocks.
-/
import Verif.Model.Factory

namespace Axl.Spec.Alloc

/-- A region of memory: `size` bytes of block `block` from `offset`. -/
structure Region where
  block : Nat
  offset : Nat
  size : Nat

/-- The region lies inside its block (`blocks`: capacities). -/
def Region.inside (blocks : List Nat) (r : Region) : Prop :=
  ∃ cap, blocks[r.block]? = some cap ∧ r.offset + r.size ≤ cap

/-- The two regions have no byte in common. -/
def Region.disjoint (a b : Region) : Prop :=
  a.block ≠ b.block ∨ a.offset + a.size ≤ b.offset ∨ b.offset + b.size ≤ a.offset

end Axl.Spec.Alloc
