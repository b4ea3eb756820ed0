/-
Property C69: the hash table with its nodes in memory.
-/
import Verif.Proofs.HashMemRun
import Verif.Props.Hash

namespace Axl
open Spec.Map Spec.Alloc
variable {κ δ φ : Type} [NullKey κ]

/-- **C69**.  The table with its nodes in memory, linked by pointers, in pieces that come from its factory and go back to it,
whatever is in the pieces that are handed out.  After any history no pointer was followed that does not lead to a node in use,
no walk took more steps than the operations done, and lookups, existence, the number of items, the answers of the three
functions that remove and the pairs that are visited are those of the finite map that the history describes.  The pairs are in
pieces `ps`, one each: each is inside of a block of the factory, and no two have a byte in common. -/
theorem C69_nodes_in_memory {hash : κ → Nat} {eq : κ → κ → Bool} (hc : Consistent hash eq) {step : Nat} (hs : 0 < step)
    (junk : Piece → Option Piece) (ops : List (Op κ δ φ)) {n : Nat} (hn : ops.length ≤ n) :
    ∃ (m0 m : MHash κ δ φ) (es : List (Entry κ δ φ)) (ps : List Piece), MHash.newFull hash eq step junk = some m0 ∧
      m0.run n ops = some m ∧ Lists eq ops.reverse es ∧
      (∀ k, m.get n k = some ((present eq ops.reverse k).bind (·.data))) ∧
      (∀ k, m.exists n k = some (present eq ops.reverse k).isSome) ∧
      m.items = es.length ∧
      (∀ k, (m.remove n k).map (·.1) = some (present eq ops.reverse k).isSome) ∧
      (∀ k, (m.delete n k).map (·.1) = some (present eq ops.reverse k).isSome) ∧
      (∀ k, (m.removeDeferred n k).map (fun r => (r.1, r.2.1)) =
        some (match present eq ops.reverse k with
          | some e => (true, ⟨some e.key, e.keyDestroy, e.data, e.dataDestroy⟩)
          | none => (false, ⟨none, none, none, none⟩))) ∧
      (∀ stop : κ → Option δ → Bool, m.foreach n stop =
        some (((es.takeWhile fun e => !stop e.key e.data) ++ (es.find? fun e => stop e.key e.data).toList).map
          fun e => (e.key, e.data))) ∧
      ps.map m.pairAt = es.map some ∧
      (∀ p ∈ ps, Region.inside m.factory.blocks ⟨p.block, p.offset, MHash.nodeSize⟩) ∧
      ps.Pairwise (fun p q => Region.disjoint ⟨p.block, p.offset, MHash.nodeSize⟩ ⟨q.block, q.offset, MHash.nodeSize⟩) := by
  obtain ⟨m0, g0, r0⟩ := MHash.newFull_rel (δ := δ) (φ := φ) hash eq step junk
  obtain ⟨m, h, A, g1, g2, r, hh⟩ := MHash.run_rel (n := n) ops r0 (AxlHash.hist_new hc hs) (by simpa using hn)
  rw [List.append_nil] at hh
  have hA : A.flatten.length ≤ n := by
    have := MHash.hist_count hh
    rw [List.length_reverse] at this
    rw [r.count]
    omega
  refine ⟨m0, m, h.table.flatten.map AxlHash.toEntry, A.flatten, g0, g1, AxlHash.hist_lists hh,
    fun k => MHash.get_rel r hA (AxlHash.hist_get hh k), fun k => MHash.exists_rel r hA (AxlHash.hist_exists hh k), ?_, ?_, ?_, ?_, ?_, ?_, ?_, ?_⟩
  · rw [r.items, hh.inv.items, List.length_map]
  · intro k
    obtain ⟨h', e1, -⟩ := AxlHash.hist_remove hh k true false
    obtain ⟨m', A', e2, -⟩ := MHash.removeCommon_rel r hA e1
    simp [MHash.remove, e2]
  · intro k
    obtain ⟨h', e1, -⟩ := AxlHash.hist_remove hh k false false
    obtain ⟨m', A', e2, -⟩ := MHash.removeCommon_rel r hA e1
    simp [MHash.delete, e2]
  · intro k
    obtain ⟨h', e1, -⟩ := AxlHash.hist_remove hh k true true
    obtain ⟨m', A', e2, -⟩ := MHash.removeCommon_rel r hA e1
    simp only [MHash.removeDeferred, e2, Option.map_some]
    cases present eq ops.reverse k <;> rfl
  · intro stop
    rw [MHash.foreach_rel r hh.inv.len hA stop]
    congr 1
    rw [List.takeWhile_map, List.find?_map]
    simp only [List.map_append, List.map_map]
    congr 1
    simp only [Function.comp_def, AxlHash.toEntry]
    cases h.table.flatten.find? (fun n => stop n.key n.data) <;> rfl
  · have := congrArg (List.map (Option.map AxlHash.toEntry)) (MHash.chains_nodes r.lenT r.lenA r.chains)
    simp only [List.map_map, Function.comp_def, Option.map_map, Option.map_some] at this
    rw [List.map_map]
    exact this
  · intro p hp
    obtain ⟨live, sp, hi, hperm⟩ := r.pool
    have := Factory.inv_inside hi (hperm.mem_iff.2 (by simpa using hp))
    rw [r.ts] at this
    exact this
  · obtain ⟨live, sp, hi, hperm⟩ := r.pool
    have := Factory.inv_disjoint hi
    rw [r.ts] at this
    refine (List.Perm.pairwise_iff ?_ (by simpa using hperm)).1 this
    intro p q hpq
    simp only [Region.disjoint] at hpq ⊢
    omega

/-- Three insertions in the slots of a table that grows, a removal, and an insertion that takes the piece given back; every
piece has a pointer to itself when it is handed out. -/
example : (do
    let m : MHash Int Nat Nat ← MHash.newFull hashInt hashEqualInt 2 fun p => some p
    let m ← m.run 5 [.insert ⟨4, none, some 1, none⟩, .insert ⟨6, none, some 2, none⟩, .insert ⟨8, none, some 3, none⟩, .remove 6,
      .insert ⟨5, none, some 4, none⟩]
    let l ← m.foreach 5 fun _ _ => false
    some (l, m.table, m.hashSize) : Option (List (Int × Option Nat) × List (Option Piece) × Nat)) =
    some ([(8, some 3), (4, some 1), (5, some 4)], [some ⟨0, 80⟩, some ⟨0, 40⟩, none, none], 4) := by decide +kernel

/-- **C69, destruction**.  For any history that ends in `axl_hash_free`, which walks the nodes in memory, the destroy calls are
those of the pairs that were inserted and were not taken out by `axl_hash_delete` or `axl_hash_remove_deferred`, one for each
key and one for each value. -/
theorem C69_destroyed_exactly_once {hash : κ → Nat} {eq : κ → κ → Bool} (hc : Consistent hash eq) {step : Nat} (hs : 0 < step)
    (junk : Piece → Option Piece) (ops : List (Op κ δ φ)) {n : Nat} (hn : ops.length ≤ n) :
    ∃ (m0 m : MHash κ δ φ) (destroyed : List (Entry κ δ φ)) (calls : List (DestroyCall κ δ φ)),
      MHash.newFull hash eq step junk = some m0 ∧ m0.run n ops = some m ∧ m.free n = some calls ∧
      (destroyed ++ takenOut eq ops.reverse).Perm (entered ops.reverse) ∧
      (AxlHash.keyCalls calls).Perm (destroyed.filterMap (Entry.keyCall NullKey.isNull)) ∧
      (AxlHash.dataCalls calls).Perm (destroyed.filterMap Entry.dataCall) := by
  obtain ⟨m0, g0, r0⟩ := MHash.newFull_rel (δ := δ) (φ := φ) hash eq step junk
  obtain ⟨m, h, A, g1, g2, r, hh⟩ := MHash.run_rel (n := n) ops r0 (AxlHash.hist_new hc hs) (by simpa using hn)
  rw [List.append_nil] at hh
  have hA : A.flatten.length ≤ n := by
    have := MHash.hist_count hh
    rw [List.length_reverse] at this
    rw [r.count]
    omega
  obtain ⟨h', ds, e1, e2, e3, e4⟩ := C12_destroyed_exactly_once hc hs ops
  rw [g2] at e1
  cases e1
  exact ⟨m0, m, ds, _, g0, g1, MHash.free_rel r hh.inv.len hA, e2, e3, e4⟩

example : (do
    let m ← MHash.newFull hashInt hashEqualInt 1 fun _ => none
    let m ← m.run 4 [.insert ⟨4, none, some 1, some 0⟩, .insert ⟨4, some 7, some 2, some 0⟩, .insert ⟨5, none, some 3, some 0⟩, .delete 5]
    m.free 4 : Option (List (DestroyCall Int Nat Nat))) = some [.data 0 (some 1), .key 7 4, .data 0 (some 2)] := by decide +kernel

/-- **C69, cursors**.  A cursor holds a pointer to a node.  From `axl_hash_cursor_new`, or from `axl_hash_cursor_first` on a
cursor that was anywhere if there are pairs, it reads each pair once with `axl_hash_cursor_next`, and
`axl_hash_cursor_has_next` says whether there is another. -/
theorem C69_cursor_reads_each_pair_once {hash : κ → Nat} {eq : κ → κ → Bool} (hc : Consistent hash eq) {step : Nat} (hs : 0 < step)
    (junk : Piece → Option Piece) (ops : List (Op κ δ φ)) {n : Nat} (hn : ops.length ≤ n) :
    ∃ (m0 m : MHash κ δ φ) (es : List (Entry κ δ φ)) (c : MCursor κ δ φ), MHash.newFull hash eq step junk = some m0 ∧
      m0.run n ops = some m ∧ Lists eq ops.reverse es ∧ MCursor.new m = some c ∧
      MCursor.Reads c (es.map fun e => (some e.key, e.data)) ∧
      ∀ c0 : MCursor κ δ φ, c0.hash = m → es ≠ [] → ∃ c, c0.first = some c ∧ MCursor.Reads c (es.map fun e => (some e.key, e.data)) := by
  obtain ⟨m0, g0, r0⟩ := MHash.newFull_rel (δ := δ) (φ := φ) hash eq step junk
  obtain ⟨m, h, A, g1, g2, r, hh⟩ := MHash.run_rel (n := n) ops r0 (AxlHash.hist_new hc hs) (by simpa using hn)
  rw [List.append_nil] at hh
  obtain ⟨h1, es, e1, e2, e3, ⟨c', e4, e5⟩, e6⟩ := C13_cursor_reads_each_pair_once hc hs ops
  rw [g2] at e1
  cases e1
  obtain ⟨c, as, k1, k2⟩ := MCursor.first_rel (c := ⟨m, none, 0⟩) (c' := ⟨h, [], 0⟩) r hh.inv.len (fun _ => ⟨rfl, rfl⟩) e4
  refine ⟨m0, m, es, c, g0, g1, e2, k1, MCursor.reads_rel e5 k2, fun c0 hc0 hne => ?_⟩
  subst hc0
  obtain ⟨c1', q1, q2⟩ := e6 ⟨h, [], 0⟩ rfl hne
  have h0 : h.table.flatten ≠ [] := by
    intro h0
    rw [AxlHash.hist_foreach hh, h0] at e3
    simp at e3
    exact hne e3
  obtain ⟨c1, as1, q3, q4⟩ := MCursor.first_rel (c := c0) (c' := ⟨h, [], 0⟩) r hh.inv.len (fun h1 => absurd h1 h0) q1
  exact ⟨c1, q3, MCursor.reads_rel q2 q4⟩

example : ∃ (m : MHash Int Nat Nat) (c c1 c2 : MCursor Int Nat Nat),
    (MHash.newFull hashInt hashEqualInt 2 fun _ => none).bind (·.run 2 [.insert ⟨1, none, some 10, none⟩, .insert ⟨3, none, some 30, none⟩]) = some m ∧
    MCursor.new m = some c ∧ c.getKey = some (some 3) ∧ c.hasNext = some true ∧ c.next = some c1 ∧ c1.getKey = some (some 1) ∧
    c1.hasNext = some false ∧ c1.next = some c2 ∧ c2.hasItem = false :=
  ⟨_, _, _, _, rfl, rfl, rfl, rfl, rfl, rfl, rfl, rfl, rfl⟩

/-- **C69, removal with a cursor**.  Removing with `axl_hash_cursor_remove`, which reads the pointer to the next node before
the node goes back to the factory, until the cursor has no item, leaves no pair and destroys each one once. -/
theorem C69_cursor_remove_all {hash : κ → Nat} {eq : κ → κ → Bool} (hc : Consistent hash eq) {step : Nat} (hs : 0 < step)
    (junk : Piece → Option Piece) (ops : List (Op κ δ φ)) {n : Nat} (hn : ops.length ≤ n) :
    ∃ (m0 m m' : MHash κ δ φ) (es : List (Entry κ δ φ)) (c : MCursor κ δ φ), MHash.newFull hash eq step junk = some m0 ∧
      m0.run n ops = some m ∧ Lists eq ops.reverse es ∧ MCursor.new m = some c ∧
      MCursor.RemovesAll n c m' ∧ m'.items = 0 ∧ (∀ k, m'.exists n k = some false) ∧
      AxlHash.keyCalls m'.log = AxlHash.keyCalls m.log ++ es.filterMap (Entry.keyCall NullKey.isNull) ∧
      AxlHash.dataCalls m'.log = AxlHash.dataCalls m.log ++ es.filterMap Entry.dataCall := by
  obtain ⟨m0, g0, r0⟩ := MHash.newFull_rel (δ := δ) (φ := φ) hash eq step junk
  obtain ⟨m, h, A, g1, g2, r, hh⟩ := MHash.run_rel (n := n) ops r0 (AxlHash.hist_new hc hs) (by simpa using hn)
  rw [List.append_nil] at hh
  have hA : A.flatten.length ≤ n := by
    have := MHash.hist_count hh
    rw [List.length_reverse] at this
    rw [r.count]
    omega
  obtain ⟨h1, h', c', es, e1, e2, e3, e4, e5, e6, e7, e8⟩ := C13_cursor_remove_all hc hs ops
  rw [g2] at e1
  cases e1
  obtain ⟨c, as, k1, k2⟩ := MCursor.first_rel (c := ⟨m, none, 0⟩) (c' := ⟨h, [], 0⟩) r hh.inv.len (fun _ => ⟨rfl, rfl⟩) e3
  have hinv : AxlHash.Inv c'.hash := by
    rcases HashCursor.first_spec ⟨h, [], 0⟩ hh.inv.len with ⟨-, q2⟩ | ⟨c2, q, q1, q2, -⟩
    · have e3 : HashCursor.first ⟨h, [], 0⟩ = some c' := e3
      rw [q2] at e3
      cases e3
      exact hh.inv
    · have e3 : HashCursor.first ⟨h, [], 0⟩ = some c' := e3
      rw [q1] at e3
      cases e3
      rw [q2]
      exact hh.inv
  obtain ⟨m', A', q1, q2, q3⟩ := MCursor.removesAll_rel e4 (n := n) k2 hinv hA
  refine ⟨m0, m, m', es, c, g0, g1, e2, k1, q1, by rw [q2.items]; exact e5, fun k => MHash.exists_rel q2 q3 (e6 k), ?_, ?_⟩
  · rw [q2.log, r.log]
    exact e7
  · rw [q2.log, r.log]
    exact e8

example : ∃ (m m' : MHash Int Nat Nat) (c : MCursor Int Nat Nat),
    (MHash.newFull hashInt hashEqualInt 2 fun _ => none).bind
      (·.run 2 [.insert ⟨1, none, some 10, some 0⟩, .insert ⟨3, none, some 30, some 0⟩]) = some m ∧
    MCursor.new m = some c ∧ MCursor.RemovesAll 2 c m' ∧ m'.log = [.data 0 (some 30), .data 0 (some 10)] :=
  ⟨_, _, _, rfl, rfl, .item rfl rfl (.item rfl rfl (.done rfl)), rfl⟩

end Axl
