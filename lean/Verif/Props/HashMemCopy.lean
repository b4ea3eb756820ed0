/-
Property C69: copies of the table with its nodes in memory, and the cursor at the last item.
-/
import Verif.Proofs.HashMemCopy
import Verif.Props.HashMem

namespace Axl
open Spec.Map Spec.Alloc
variable {κ δ φ : Type} [NullKey κ]

/-- **C69, copies**.  The copy of a table after any history, with `axl_hash_copy` or `axl_hash_copy_full` (`full`), if the keys
that are made are equal to the keys copied: no pointer is followed that does not lead to a node in use, and the copy has the
copy of each pair.  From then on, whatever is done with it, the copy does as a table in which the copies of the pairs, with the
destroy functions that are due, were inserted: lookups, existence, the number of items, the pairs visited and, when it is freed,
the destroy calls. -/
theorem C69_copy_is_equal {hash : κ → Nat} {eq : κ → κ → Bool} (hc : Consistent hash eq) {step : Nat} (hs : 0 < step)
    (junk junk' : Piece → Option Piece) (ops : List (Op κ δ φ)) {n : Nat} (hn : ops.length ≤ n)
    (keyCopy : Entry κ δ φ → κ) (dataCopy : Entry κ δ φ → Option δ) (hk : ∀ e, eq (keyCopy e) e.key = true)
    (full : Option (Option φ × Option φ)) :
    ∃ (m0 m r : MHash κ δ φ) (es : List (Entry κ δ φ)), MHash.newFull hash eq step junk = some m0 ∧ m0.run n ops = some m ∧
      Lists eq ops.reverse es ∧
      m.copyCommon n (fun x => keyCopy ⟨x.key, x.keyDestroy, x.data, x.dataDestroy⟩)
        (fun x => dataCopy ⟨x.key, x.keyDestroy, x.data, x.dataDestroy⟩) full junk' = some r ∧
      r.items = es.length ∧
      (∀ k, r.get n k = some ((present eq ops.reverse k).bind dataCopy)) ∧
      (∀ k, r.exists n k = some (present eq ops.reverse k).isSome) ∧
      ∀ (ops' : List (Op κ δ φ)) (n' : Nat), ops.length + ops'.length ≤ n' →
        let copies := es.map fun e => (⟨keyCopy e, (full.map (·.1)).getD e.keyDestroy, dataCopy e,
          (full.map (·.2)).getD e.dataDestroy⟩ : Entry κ δ φ)
        let past := ops'.reverse ++ copies.map Op.insert
        ∃ (r' : MHash κ δ φ) (es' destroyed : List (Entry κ δ φ)) (calls : List (DestroyCall κ δ φ)), r.run n' ops' = some r' ∧
          Lists eq past es' ∧ r'.items = es'.length ∧
          (∀ k, r'.get n' k = some ((present eq past k).bind (·.data))) ∧
          (∀ k, r'.exists n' k = some (present eq past k).isSome) ∧
          r'.foreach n' (fun _ _ => false) = some (es'.map fun e => (e.key, e.data)) ∧
          r'.free n' = some calls ∧
          (destroyed ++ takenOut eq past).Perm (entered past) ∧
          (AxlHash.keyCalls calls).Perm (destroyed.filterMap (Entry.keyCall NullKey.isNull)) ∧
          (AxlHash.dataCalls calls).Perm (destroyed.filterMap Entry.dataCall) := by
  obtain ⟨m0, g0, r0⟩ := MHash.newFull_rel (δ := δ) (φ := φ) hash eq step junk
  obtain ⟨m, h, A, g1, g2, r, hh⟩ := MHash.run_rel (n := n) ops r0 (AxlHash.hist_new hc hs) (by simpa using hn)
  rw [List.append_nil] at hh
  have hcnt := MHash.hist_count hh
  rw [List.length_reverse] at hcnt
  have hA : A.flatten.length ≤ n := by rw [r.count]; omega
  obtain ⟨h1, hr, es, e1, e2, e3, e4, e5, e6, -⟩ := C11_copy_is_equal hc hs ops keyCopy dataCopy hk full
  rw [g2] at e1
  cases e1
  have hist := MHash.copy_hist hh (fun x _ => hk ⟨x.key, x.keyDestroy, x.data, x.dataDestroy⟩) e2
  obtain ⟨mr, Ar, k1, k2, k3⟩ := MHash.copyCommon_rel r hh.inv hA junk' e2 hist.inv
  refine ⟨m0, m, mr, h.table.flatten.map AxlHash.toEntry, g0, g1, AxlHash.hist_lists hh, k1, ?_,
    fun k => MHash.get_rel k2 k3 (e5 k), fun k => MHash.exists_rel k2 k3 (e6 k), ?_⟩
  · rw [k2.items, hist.inv.items]
    obtain ⟨ds, hp, -⟩ := hist.ledger
    obtain ⟨r2, q1, -, -, -, q2⟩ := AxlHash.copyCommon_spec hh.inv _ _ (fun x _ => by
      rw [hh.equal_eq]; exact hk ⟨x.key, x.keyDestroy, x.data, x.dataDestroy⟩) full
    rw [e2] at q1
    cases q1
    rw [q2.length_eq, List.length_map, List.length_map]
  · intro ops' n' hn'
    obtain ⟨mr', hr', Ar', q1, q2, q3, q4⟩ := MHash.run_rel (n := n') ops' k2 hist (by simp only [List.length_map]; omega)
    have hcopies : ((h.table.flatten.map AxlHash.toEntry).map fun e => (⟨keyCopy e, (full.map (·.1)).getD e.keyDestroy, dataCopy e,
        (full.map (·.2)).getD e.dataDestroy⟩ : Entry κ δ φ)) = h.table.flatten.map fun x =>
        (⟨keyCopy ⟨x.key, x.keyDestroy, x.data, x.dataDestroy⟩, (full.map (·.1)).getD x.keyDestroy,
          dataCopy ⟨x.key, x.keyDestroy, x.data, x.dataDestroy⟩, (full.map (·.2)).getD x.dataDestroy⟩ : Entry κ δ φ) := by
      rw [List.map_map]; rfl
    intro copies past
    have hpast : past = ops'.reverse ++ (h.table.flatten.map fun x =>
        (⟨keyCopy ⟨x.key, x.keyDestroy, x.data, x.dataDestroy⟩, (full.map (·.1)).getD x.keyDestroy,
          dataCopy ⟨x.key, x.keyDestroy, x.data, x.dataDestroy⟩, (full.map (·.2)).getD x.dataDestroy⟩ : Entry κ δ φ)).map Op.insert := by
      show ops'.reverse ++ List.map Op.insert (List.map _ (List.map AxlHash.toEntry _)) = _
      rw [hcopies]
    rw [← hpast] at q4
    have hcnt' := MHash.hist_count q4
    have hA' : Ar'.flatten.length ≤ n' := by
      rw [q3.count]
      rw [hpast] at hcnt'
      simp only [List.length_append, List.length_reverse, List.length_map] at hcnt'
      omega
    obtain ⟨ds, hp, hkc, hdc⟩ := q4.ledger
    refine ⟨mr', hr'.table.flatten.map AxlHash.toEntry, hr'.table.flatten.map AxlHash.toEntry ++ ds, _, q1, AxlHash.hist_lists q4,
      by rw [q3.items, q4.inv.items, List.length_map], fun k => MHash.get_rel q3 hA' (AxlHash.hist_get q4 k),
      fun k => MHash.exists_rel q3 hA' (AxlHash.hist_exists q4 k), ?_, MHash.free_rel q3 q4.inv.len hA', hp, ?_, ?_⟩
    · rw [MHash.foreach_rel q3 q4.inv.len hA', AxlHash.takeWhile_all (fun _ => false) _ (by simp), List.find?_eq_none.2 (by simp)]
      simp [List.map_map, Function.comp_def, AxlHash.toEntry]
    · have htake : hr'.table.take hr'.hashSize = hr'.table := by rw [← q4.inv.len]; exact List.take_length
      simp only [AxlHash.free, htake, AxlHash.keyCalls_append, List.filterMap_append]
      refine List.perm_append_comm.trans (List.Perm.append ?_ hkc)
      have : ∀ ns : List (HashNode κ δ φ), AxlHash.keyCalls (ns.flatMap fun n =>
          AxlHash.cleanupCalls n.key n.keyDestroy n.data n.dataDestroy) =
          (ns.map AxlHash.toEntry).filterMap (Entry.keyCall NullKey.isNull) := by
        intro ns
        induction ns with
        | nil => rfl
        | cons n ns ih =>
          rw [List.flatMap_cons, AxlHash.keyCalls_append, AxlHash.keyCalls_cleanup, ih, List.map_cons, List.filterMap_cons]
          cases Entry.keyCall NullKey.isNull (AxlHash.toEntry n) <;> rfl
      rw [this]
    · have htake : hr'.table.take hr'.hashSize = hr'.table := by rw [← q4.inv.len]; exact List.take_length
      simp only [AxlHash.free, htake, AxlHash.dataCalls_append, List.filterMap_append]
      refine List.perm_append_comm.trans (List.Perm.append ?_ hdc)
      have : ∀ ns : List (HashNode κ δ φ), AxlHash.dataCalls (ns.flatMap fun n =>
          AxlHash.cleanupCalls n.key n.keyDestroy n.data n.dataDestroy) =
          (ns.map AxlHash.toEntry).filterMap Entry.dataCall := by
        intro ns
        induction ns with
        | nil => rfl
        | cons n ns ih =>
          rw [List.flatMap_cons, AxlHash.dataCalls_append, AxlHash.dataCalls_cleanup, ih, List.map_cons, List.filterMap_cons]
          cases Entry.dataCall (AxlHash.toEntry n) <;> rfl
      rw [this]

/-- Two pairs in the same chain are copied with other destroy functions; then one is removed from the copy, and it is freed. -/
example : (do
    let m : MHash Int Nat Nat ← MHash.newFull hashInt hashEqualInt 2 fun p => some p
    let m ← m.run 3 [.insert ⟨4, none, some 1, none⟩, .insert ⟨6, none, some 2, some 5⟩, .insert ⟨5, none, some 3, none⟩]
    let r ← m.copyCommon 3 (fun x => x.key) (fun x => x.data.map (· + 100)) (some (none, some 9)) fun p => some p
    let v ← r.get 3 6
    let r ← r.run 4 [.delete 5]
    let calls ← r.free 4
    let w ← m.get 3 5
    some (v, w, calls) : Option (Option Nat × Option Nat × List (DestroyCall Int Nat Nat))) =
    some (some 102, some 3, [.data 9 (some 101), .data 9 (some 102)]) := by decide +kernel

/-- **C69, the last item**.  `axl_hash_cursor_last` follows pointers to nodes in use only.  If a pair is in a slot that is not
the first, the cursor is at the pair that is visited last; otherwise it has no item (the first slot is not looked at: see C13). -/
theorem C69_cursor_last {hash : κ → Nat} {eq : κ → κ → Bool} (hc : Consistent hash eq) {step : Nat} (hs : 0 < step)
    (junk : Piece → Option Piece) (ops : List (Op κ δ φ)) {n : Nat} (hn : ops.length ≤ n) :
    ∃ (m0 m : MHash κ δ φ) (es : List (Entry κ δ φ)), MHash.newFull hash eq step junk = some m0 ∧ m0.run n ops = some m ∧
      Lists eq ops.reverse es ∧ m.foreach n (fun _ _ => false) = some (es.map fun e => (e.key, e.data)) ∧
      ∀ c0 : MCursor κ δ φ, c0.hash = m → ∃ c, c0.last n = some c ∧
        if ∃ e ∈ es, hash e.key % m.hashSize ≠ 0 then
          MCursor.Reads c ((es.getLast?.map fun e => (some e.key, e.data)).toList) ∧ es ≠ []
        else c.hasItem = false := by
  obtain ⟨m0, g0, r0⟩ := MHash.newFull_rel (δ := δ) (φ := φ) hash eq step junk
  obtain ⟨m, h, A, g1, g2, r, hh⟩ := MHash.run_rel (n := n) ops r0 (AxlHash.hist_new hc hs) (by simpa using hn)
  rw [List.append_nil] at hh
  have hcnt := MHash.hist_count hh
  rw [List.length_reverse] at hcnt
  have hA : A.flatten.length ≤ n := by rw [r.count]; omega
  obtain ⟨h1, es, e1, e2, e3, e4⟩ := C13_cursor_last_partial hc hs ops
  rw [g2] at e1
  cases e1
  refine ⟨m0, m, es, g0, g1, e2, ?_, fun c0 hc0 => ?_⟩
  · rw [MHash.foreach_rel r hh.inv.len hA, ← e3, AxlHash.hist_foreach hh]
  · subst hc0
    obtain ⟨c', q1, q2⟩ := e4 ⟨h, [], 0⟩ rfl
    obtain ⟨c, as, q3, q4⟩ := MCursor.last_rel (c' := ⟨h, [], 0⟩) r hh.inv.len hA q1
    refine ⟨c, q3, ?_⟩
    rw [r.size]
    split at q2
    · next hx => rw [if_pos hx]; exact ⟨MCursor.reads_rel q2.1 q4, q2.2⟩
    · next hx => rw [if_neg hx, MCursor.hasItem_rel q4]; exact q2

example : ∃ (m : MHash Int Nat Nat) (c c1 : MCursor Int Nat Nat),
    (MHash.newFull hashInt hashEqualInt 3 fun _ => none).bind
      (·.run 3 [.insert ⟨1, none, some 10, none⟩, .insert ⟨3, none, some 30, none⟩, .insert ⟨4, none, some 40, none⟩]) = some m ∧
    MCursor.last 3 ⟨m, none, 0⟩ = some c ∧ c.getKey = some (some 1) ∧ c.next = some c1 ∧ c1.hasItem = false :=
  ⟨_, _, _, rfl, rfl, rfl, rfl, rfl⟩

end Axl
