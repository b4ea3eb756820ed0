/-
Model of src/axl_factory.c (axlFactory and axlStrFactory).

Memory is a list of blocks; a block is its capacity in bytes and a returned pointer is a block
number and an offset.
-/
namespace Axl

/-- A pointer into a block. -/
structure Piece where
  block  : Nat
  offset : Nat
deriving DecidableEq, Repr

/-- `struct _axlFactory` (src/axl_factory.c:50-60).  `blocks`: capacity in bytes of each block,
oldest first; the current one (`factory->block`) is the last.  `spares`: the array of spares with
its capacity, unwritten cells are `none`. -/
structure Factory where
  count     : Nat
  step      : Nat
  typeSize  : Nat
  spareMax  : Int
  spareNext : Int
  spares    : List (Option Piece)
  blocks    : List Nat

namespace Factory

/-- `axl_factory_create` (src/axl_factory.c:73-87).  A type size of 0 is a division by zero. -/
def create (typeSize : Nat) : Option Factory :=
  if typeSize = 0 then none
  else some { count := 0, step := 256 / typeSize, typeSize, spareMax := 0, spareNext := 0, spares := [],
              blocks := [256 / typeSize * typeSize] }

/-- The growth of the step (src/axl_factory.c:114-119). -/
def nextStep (f : Factory) : Nat :=
  if f.step = 256 / f.typeSize then 512 / f.typeSize
  else if f.step = 512 / f.typeSize then 1024 / f.typeSize
  else if f.step = 1024 / f.typeSize then 2048 / f.typeSize
  else f.step

/-- `axl_factory_get` (src/axl_factory.c:97-131).  Simplification: allocation never fails. -/
def get (f : Factory) : Option (Piece × Factory) :=
  if f.spareMax > 0 ∧ f.spareNext ≥ 0 then do
    let p ← f.spares[f.spareNext.toNat]?.join
    some (p, { f with spareNext := f.spareNext - 1 })
  else
    let f := { f with count := f.count + 1 }
    let f :=
      if f.count > f.step then
        let step := f.nextStep
        { f with step := step, count := 1, blocks := f.blocks ++ [step * f.typeSize] }
      else f
    some (⟨f.blocks.length - 1, (f.count - 1) * f.typeSize⟩, f)

/-- Write in the array of spares; outside of it is undefined behaviour. -/
def writeSpare (f : Factory) (p : Piece) : Option Factory :=
  if 0 ≤ f.spareNext ∧ f.spareNext.toNat < f.spares.length then
    some { f with spares := f.spares.set f.spareNext.toNat (some p) }
  else none

/-- `axl_factory_release_spare` (src/axl_factory.c:133-166). -/
def release (f : Factory) (p : Piece) : Option Factory :=
  if f.spareMax = 0 then
    writeSpare { f with spares := List.replicate 10 none, spareMax := 9, spareNext := 0 } p
  else if f.spareMax > f.spareNext then
    writeSpare { f with spareNext := if f.spareNext = -1 then 0 else f.spareNext + 1 } p
  else
    let cap := f.spareMax + 10
    writeSpare { f with
      spares := f.spares.take cap.toNat ++ List.replicate (cap.toNat - f.spares.length) none
      spareMax := cap - 1
      spareNext := f.spareNext + 1 } p

end Factory

/-- `struct _axlStrFactory` (src/axl_factory.c:243-258).  `blocks`: capacity in bytes of each
buffer, oldest first; the current one is the last. -/
structure StrFactory where
  index  : Int
  step   : Int
  size   : Int
  blocks : List Nat

namespace StrFactory

/-- `axl_string_factory_create` (src/axl_factory.c:267-280). -/
def create : StrFactory := ⟨0, 1024, 1024, [1024]⟩

/-- The part of `axl_string_factory_alloc` that switches to a new block
(src/axl_factory.c:300-319). -/
def ensure (f : StrFactory) (size : Nat) : StrFactory :=
  if f.size - f.index - 1 < size then
    if (size : Int) > f.size then
      { f with size := size + 1, blocks := f.blocks ++ [size + 1], index := 0 }
    else
      let s := if (size : Int) > f.step then (size : Int) else f.step
      { f with size := s, blocks := f.blocks ++ [(s + 1).toNat], index := 0 }
  else f

/-- `axl_string_factory_alloc` (src/axl_factory.c:293-331).  `none`: the terminator is written
outside of the buffer.  Simplification: the requested size is not negative. -/
def alloc (f : StrFactory) (size : Nat) : Option (Piece × StrFactory) := do
  let f := f.ensure size
  let cap ← f.blocks[f.blocks.length - 1]?
  -- result [ size ] = 0
  if 0 ≤ f.index ∧ f.index + size < cap then
    some (⟨f.blocks.length - 1, f.index.toNat⟩, { f with index := f.index + size + 1 })
  else none

end StrFactory
end Axl
