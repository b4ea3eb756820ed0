/-
Properties C14 and C15: the allocators of src/axl_factory.c.
-/
import Verif.Proofs.Factory

namespace Axl
open Spec.Alloc

/-- **C14** (partial).  For element sizes from 1 to 512 bytes and any history of requests and
give-backs, the pieces in use lie inside the blocks of the factory and no two of them overlap.
Missing: sizes above 512, for which it is false (`C14_factory_large_out_of_bounds`). -/
theorem C14_factory_disjoint_partial (ts : Nat) (h : 0 < ts ∧ ts ≤ 512) (ops : List Factory.Op) :
    ∃ f0 f live, Factory.create ts = some f0 ∧ Factory.run (f0, []) ops = some (f, live) ∧
      (∀ p ∈ live, Region.inside f.blocks ⟨p.block, p.offset, ts⟩) ∧
      live.Pairwise (fun p q => Region.disjoint ⟨p.block, p.offset, ts⟩ ⟨q.block, q.offset, ts⟩) := by
  obtain ⟨f0, h1, h2, h3⟩ := Factory.inv_create ts h
  obtain ⟨f, live, sp, g1, g2, g3⟩ := Factory.run_spec ops h2
  rw [h3] at g3
  refine ⟨f0, f, live, h1, g1, ?_, ?_⟩
  · intro p hp; rw [← g3]; exact Factory.inv_inside g2 hp
  · rw [← g3]; exact Factory.inv_disjoint g2

/-- For element sizes above 512 bytes the very first piece handed out lies outside of any block. -/
theorem C14_factory_large_out_of_bounds (ts : Nat) (h : 512 < ts) :
    ∃ f0 p f, Factory.create ts = some f0 ∧ f0.get = some (p, f) ∧
      ¬ Region.inside f.blocks ⟨p.block, p.offset, ts⟩ := by
  have e1 : 256 / ts = 0 := Nat.div_eq_of_lt (by omega)
  have e2 : 512 / ts = 0 := Nat.div_eq_of_lt (by omega)
  refine ⟨⟨0, 0, ts, 0, 0, [], [0]⟩, ⟨1, 0⟩, ⟨1, 0, ts, 0, 0, [], [0, 0]⟩, ?_, ?_, ?_⟩
  · simp [Factory.create, e1, show ts ≠ 0 by omega]
  · simp [Factory.get, Factory.nextStep, e1, e2]
  · rintro ⟨cap, h1, h2⟩
    simp at h1 h2
    omega

/-- 12 pieces of 100 bytes cross three blocks; one is given back and handed out again. -/
example : ((Factory.create 100).bind (fun f => Factory.run (f, []) [.get, .get, .get, .get, .get, .get,
    .get, .get, .get, .get, .get, .get, .giveBack 3, .get])).map (fun r => (r.2[2]?, r.2[11]?, r.1.blocks.length))
    = some (some ⟨1, 0⟩, some ⟨1, 100⟩, 3) := by decide

/-- **C15**.  For any sequence of requested sizes, each buffer returned has room for the size and
the terminator inside a block of the factory, and no two buffers overlap. -/
theorem C15_string_factory_disjoint (sizes : List Nat) :
    ∃ f rs, StrFactory.create.run sizes = some (f, rs) ∧ rs.map Region.size = sizes.map (· + 1) ∧
      (∀ r ∈ rs, Region.inside f.blocks r) ∧ rs.Pairwise Region.disjoint := by
  obtain ⟨f, rs, h1, h2, h3⟩ := StrFactory.run_spec sizes StrFactory.inv_create
  simp only [List.nil_append] at h2
  exact ⟨f, rs, h1, h3, h2.inside, h2.disj⟩

example : (StrFactory.create.run [1000, 23, 22, 5000, 10]).map (fun r => r.2.map (fun r => (r.block, r.offset)))
    = some [(0, 0), (1, 0), (1, 24), (2, 0), (3, 0)] := by decide

end Axl
