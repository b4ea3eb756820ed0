/-
Properties C09 to C13: axlHash.
-/
import Verif.Proofs.HashRun

namespace Axl
open Spec.Map AxlHash

variable {κ δ φ : Type} [NullKey κ]

/-- **C09**.  After any history of insertions and removals, on a hash with any consistent hash and
comparison functions and any step: lookups, existence, the item count, and the answers of the three
removal functions are those of the finite map described by the history. -/
theorem C09_hash_is_a_map {hash : κ → Nat} {eq : κ → κ → Bool} (hc : Consistent hash eq) {step : Nat}
    (hs : 0 < step) (ops : List (Op κ δ φ)) :
    ∃ h : AxlHash κ δ φ, (newFull hash eq step).run ops = some h ∧
      (∀ k, h.get k = some ((present eq ops.reverse k).bind (·.data))) ∧
      (∀ k, h.exists k = some (present eq ops.reverse k).isSome) ∧
      (∃ es, Lists eq ops.reverse es ∧ h.items = es.length) ∧
      (∀ k, (h.remove k).map (·.1) = some (present eq ops.reverse k).isSome) ∧
      (∀ k, (h.delete k).map (·.1) = some (present eq ops.reverse k).isSome) ∧
      (∀ k, (h.removeDeferred k).map (fun r => (r.1, r.2.1)) =
        some (match present eq ops.reverse k with
          | some e => (true, ⟨some e.key, e.keyDestroy, e.data, e.dataDestroy⟩)
          | none => (false, ⟨none, none, none, none⟩))) := by
  obtain ⟨h, h1, h2⟩ := hist_run ops (hist_new hc hs)
  rw [List.append_nil] at h2
  refine ⟨h, h1, hist_get h2, hist_exists h2, ⟨_, hist_lists h2, ?_⟩, ?_, ?_, ?_⟩
  · rw [h2.inv.items, List.length_map]
  · intro k
    obtain ⟨h', g1, -⟩ := hist_remove h2 k true false
    simp [AxlHash.remove, g1]
  · intro k
    obtain ⟨h', g1, -⟩ := hist_remove h2 k false false
    simp [AxlHash.delete, g1]
  · intro k
    obtain ⟨h', g1, -⟩ := hist_remove h2 k true true
    simp only [AxlHash.removeDeferred, g1, Option.map_some]
    cases present eq ops.reverse k <;> rfl

theorem hashEqualStringLoop_iff : ∀ a b : List Char, hashEqualStringLoop a b = true ↔ a = b
  | [], [] => by simp [hashEqualStringLoop]
  | [], b :: t => by simp [hashEqualStringLoop]
  | a :: s, [] => by simp [hashEqualStringLoop]
  | a :: s, b :: t => by
    unfold hashEqualStringLoop
    have := hashEqualStringLoop_iff s t
    by_cases h : a = b <;> simp [h, this]

/-- The library's functions for integer keys are consistent: all the theorems here apply. -/
theorem C09_int_functions_consistent : Consistent hashInt hashEqualInt where
  refl a := by simp [hashEqualInt]
  symm a b h := by simp only [hashEqualInt, beq_iff_eq] at *; exact h.symm
  trans a b c h h' := by simp only [hashEqualInt, beq_iff_eq] at *; exact h.trans h'
  hash a b h := by simp only [hashEqualInt, beq_iff_eq] at h; rw [h]

/-- The library's functions for string keys are consistent on strings that are not NULL, and equal
is equality. -/
theorem C09_string_functions_consistent :
    Consistent (fun s => hashString (some s)) (fun a b => hashEqualString (some a) (some b)) ∧
    ∀ a b, hashEqualString (some a) (some b) = true ↔ a = b := by
  have h : ∀ a b, hashEqualString (some a) (some b) = true ↔ a = b := fun a b => hashEqualStringLoop_iff a b
  refine ⟨⟨fun a => (h a a).2 rfl, fun a b hab => (h b a).2 ((h a b).1 hab).symm,
    fun a b c hab hbc => (h a c).2 (((h a b).1 hab).trans ((h b c).1 hbc)), fun a b hab => ?_⟩, h⟩
  have := (h a b).1 hab; rw [this]

example : ((newFull (fun s => hashString (some s)) (fun a b => hashEqualString (some a) (some b)) 1 :
      AxlHash (List Char) Nat Nat).run
    [.insert ⟨"a".toList, none, some 1, none⟩, .insert ⟨"b".toList, none, some 2, none⟩,
     .insert ⟨"a".toList, none, some 3, none⟩, .remove "b".toList]).bind
    (fun h => do let a ← h.get "a".toList; let b ← h.get "b".toList; some (a, b, h.items)) =
    some (some 3, none, 1) := by decide +kernel

/-- **C09, NULL keys**: the claim fails for `axl_hash_equal_string` with NULL keys: a pair stored
under NULL is found under any string that falls in the same slot, and not under NULL. -/
theorem C09_null_string_key_found_under_other_key :
    ((new hashString hashEqualString : AxlHash (Option (List Char)) Nat Nat).run
      [.insert ⟨none, none, some 7, none⟩]).bind
      (fun h => do let a ← h.get none; let b ← h.get (some "\n".toList); some (a, b)) =
    some (none, some 7) := by decide +kernel

/-- **C10**.  `axl_hash_foreach` calls the function on every stored pair once, in some order, and
stops right after the first pair on which the function answers true. -/
theorem C10_foreach_visits_each_pair_once {hash : κ → Nat} {eq : κ → κ → Bool} (hc : Consistent hash eq) {step : Nat}
    (hs : 0 < step) (ops : List (Op κ δ φ)) :
    ∃ (h : AxlHash κ δ φ) (es : List (Entry κ δ φ)), (newFull hash eq step).run ops = some h ∧
      Lists eq ops.reverse es ∧ h.foreach (fun _ _ => false) = some (es.map fun e => (e.key, e.data)) ∧
      ∀ stop : κ → Option δ → Bool, h.foreach stop =
        some (((es.takeWhile fun e => !stop e.key e.data) ++ (es.find? fun e => stop e.key e.data).toList).map
          fun e => (e.key, e.data)) := by
  obtain ⟨h, h1, h2⟩ := hist_run ops (hist_new hc hs)
  rw [List.append_nil] at h2
  have hall : ∀ stop : κ → Option δ → Bool, h.foreach stop =
        some ((((h.table.flatten.map toEntry).takeWhile fun e => !stop e.key e.data) ++
          ((h.table.flatten.map toEntry).find? fun e => stop e.key e.data).toList).map
          fun e => (e.key, e.data)) := by
    intro stop
    rw [hist_foreach h2 stop]
    congr 1
    rw [List.takeWhile_map, List.find?_map]
    simp only [List.map_append, List.map_map]
    congr 1
    simp only [Function.comp_def, toEntry]
    cases h.table.flatten.find? (fun n => stop n.key n.data) <;> rfl
  refine ⟨h, _, h1, hist_lists h2, ?_, hall⟩
  rw [hall]
  congr 2
  rw [takeWhile_all (fun _ => false) _ (by simp), List.find?_eq_none.2 (by simp)]
  simp

example : ((newFull hashInt hashEqualInt 2 : AxlHash Int Nat Nat).run
    [.insert ⟨4, none, some 1, none⟩, .insert ⟨6, none, some 2, none⟩, .insert ⟨5, none, some 3, none⟩]).bind
    (fun h => h.foreach (fun k _ => k == 4)) = some [(4, some 1)] := by decide +kernel

/-- **C11**.  A copy of a hash (key copies being equal to the keys) associates each key to the copy
of its value, has the same number of items, and on destruction runs, for every pair, the destroy
functions of the source pair (`axl_hash_copy`) or the ones given (`axl_hash_copy_full`) on the
copies. -/
theorem C11_copy_is_equal {hash : κ → Nat} {eq : κ → κ → Bool} (hc : Consistent hash eq) {step : Nat}
    (hs : 0 < step) (ops : List (Op κ δ φ)) (keyCopy : Entry κ δ φ → κ) (dataCopy : Entry κ δ φ → Option δ)
    (hk : ∀ e, eq (keyCopy e) e.key = true) (full : Option (Option φ × Option φ)) :
    ∃ (h r : AxlHash κ δ φ) (es : List (Entry κ δ φ)), (newFull hash eq step).run ops = some h ∧
      h.copyCommon (fun n => keyCopy ⟨n.key, n.keyDestroy, n.data, n.dataDestroy⟩)
        (fun n => dataCopy ⟨n.key, n.keyDestroy, n.data, n.dataDestroy⟩) full = some r ∧
      Lists eq ops.reverse es ∧ r.items = es.length ∧
      (∀ k, r.get k = some ((present eq ops.reverse k).bind dataCopy)) ∧
      (∀ k, r.exists k = some (present eq ops.reverse k).isSome) ∧
      let copies := es.map fun e => (⟨keyCopy e, (full.map (·.1)).getD e.keyDestroy, dataCopy e,
        (full.map (·.2)).getD e.dataDestroy⟩ : Entry κ δ φ)
      (keyCalls r.free).Perm (copies.filterMap (Entry.keyCall NullKey.isNull)) ∧
      (dataCalls r.free).Perm (copies.filterMap Entry.dataCall) := by
  obtain ⟨h, h1, h2⟩ := hist_run ops (hist_new hc hs)
  rw [List.append_nil] at h2
  obtain ⟨r, g1, g2, g3, g4, g5⟩ := copyCommon_spec h2.inv (fun n => keyCopy (toEntry n)) (fun n => dataCopy (toEntry n))
    (fun n _ => by rw [h2.equal_eq]; exact hk (toEntry n)) full
  have hcc : Consistent r.hash r.equal := g2.cons
  have hreq : r.equal = eq := g3.2.1.trans h2.equal_eq
  -- nodes of the copy
  let cp : HashNode κ δ φ → HashNode κ δ φ := fun n =>
    ⟨keyCopy (toEntry n), (full.map (·.1)).getD n.keyDestroy, dataCopy (toEntry n), (full.map (·.2)).getD n.dataDestroy⟩
  have hp : r.table.flatten.Perm (h.table.flatten.map cp) := by
    refine g5.trans ?_
    rcases full with _ | ⟨kd, dd⟩ <;> exact List.Perm.refl _
  have hlook : ∀ k, (r.table.flatten.find? fun n => eq n.key k) =
      (h.table.flatten.find? fun n => eq n.key k).map cp := by
    intro k
    have := find?_perm (k := k) g2.cons hp g2.diff
    rw [hreq] at this
    rw [this, List.find?_map]
    congr 1
    have hfun : ((fun n : HashNode κ δ φ => eq n.key k) ∘ cp) = (fun n => eq n.key k) := by
      funext n
      have hke : eq (keyCopy (toEntry n)) n.key = true := hk (toEntry n)
      show eq (keyCopy (toEntry n)) k = eq n.key k
      cases h3 : eq n.key k with
      | true => exact hc.trans _ _ _ hke h3
      | false =>
        cases h4 : eq (keyCopy (toEntry n)) k with
        | false => rfl
        | true => rw [hc.trans _ _ _ (hc.symm _ _ hke) h4] at h3; cases h3
    rw [hfun]
  have hpres := h2.look
  refine ⟨h, r, _, h1, g1, hist_lists h2, ?_, ?_, ?_, ?_⟩
  · rw [g2.items, hp.length_eq, List.length_map, List.length_map]
  · intro k
    rw [← hpres k]
    have hl := hlook k
    unfold AxlHash.get
    split
    · next h0 =>
      have := g2.items
      rw [h0] at this
      rw [List.eq_nil_of_length_eq_zero this.symm] at hl
      cases hx : h.table.flatten.find? (fun n => eq n.key k) with
      | none => rfl
      | some n => rw [hx] at hl; cases hl
    · rw [lookup_spec g2.toTInv, hreq, hl]
      cases h.table.flatten.find? (fun n => eq n.key k) <;> rfl
  · intro k
    rw [← hpres k]
    unfold AxlHash.exists
    rw [lookup_spec g2.toTInv, hreq, hlook k]
    cases h.table.flatten.find? (fun n => eq n.key k) <;> rfl
  · have htake : r.table.take r.hashSize = r.table := by rw [← g2.len]; exact List.take_length
    have hfree : r.free = r.table.flatten.flatMap fun n => cleanupCalls n.key n.keyDestroy n.data n.dataDestroy := by
      simp only [free, htake, g4, List.nil_append]
    constructor
    · rw [hfree]
      have e1 : ∀ ns : List (HashNode κ δ φ), keyCalls (ns.flatMap fun n => cleanupCalls n.key n.keyDestroy n.data n.dataDestroy) =
          (ns.map toEntry).filterMap (Entry.keyCall NullKey.isNull) := by
        intro ns
        induction ns with
        | nil => rfl
        | cons n ns ih =>
          rw [List.flatMap_cons, keyCalls_append, keyCalls_cleanup, ih, List.map_cons, List.filterMap_cons]
          cases Entry.keyCall NullKey.isNull (toEntry n) <;> rfl
      rw [e1]
      refine ((hp.map toEntry).filterMap _).trans ?_
      simp only [List.map_map]
      exact List.Perm.refl _
    · rw [hfree]
      have e1 : ∀ ns : List (HashNode κ δ φ), dataCalls (ns.flatMap fun n => cleanupCalls n.key n.keyDestroy n.data n.dataDestroy) =
          (ns.map toEntry).filterMap Entry.dataCall := by
        intro ns
        induction ns with
        | nil => rfl
        | cons n ns ih =>
          rw [List.flatMap_cons, dataCalls_append, dataCalls_cleanup, ih, List.map_cons, List.filterMap_cons]
          cases Entry.dataCall (toEntry n) <;> rfl
      rw [e1]
      refine ((hp.map toEntry).filterMap _).trans ?_
      simp only [List.map_map]
      exact List.Perm.refl _

example : ((newFull hashInt hashEqualInt 1 : AxlHash Int Nat Nat).run
    [.insert ⟨4, none, some 1, none⟩, .insert ⟨5, none, some 3, some 9⟩]).bind
    (fun h => (h.copyCommon (fun n => n.key) (fun n => n.data.map (· + 100)) none).bind
      (fun r => (r.get 5).map fun v => (v, r.free))) = some (some 103, [.data 9 (some 103)]) := by decide +kernel

/-- Copying a string hash with a NULL key dereferences NULL (the pair is not found again). -/
theorem C11_copy_null_string_key_crashes :
    ((new hashString hashEqualString : AxlHash (Option (List Char)) Nat Nat).run
      [.insert ⟨none, none, some 7, none⟩]).bind
      (fun h => h.copyCommon (fun n => n.key) (fun n => n.data) none) |>.isNone := by decide +kernel

/-- **C12**.  For any history ending in `axl_hash_free`, the pairs inserted split into those taken
out without being destroyed (`axl_hash_delete`, `axl_hash_remove_deferred`) and those destroyed, and
the destroy calls made are exactly the ones of the latter, one per key and one per value. -/
theorem C12_destroyed_exactly_once {hash : κ → Nat} {eq : κ → κ → Bool} (hc : Consistent hash eq) {step : Nat}
    (hs : 0 < step) (ops : List (Op κ δ φ)) :
    ∃ (h : AxlHash κ δ φ) (destroyed : List (Entry κ δ φ)), (newFull hash eq step).run ops = some h ∧
      (destroyed ++ takenOut eq ops.reverse).Perm (entered ops.reverse) ∧
      (keyCalls h.free).Perm (destroyed.filterMap (Entry.keyCall NullKey.isNull)) ∧
      (dataCalls h.free).Perm (destroyed.filterMap Entry.dataCall) := by
  obtain ⟨h, h1, h2⟩ := hist_run ops (hist_new hc hs)
  rw [List.append_nil] at h2
  obtain ⟨ds, hp, hk, hd⟩ := h2.ledger
  have htake : h.table.take h.hashSize = h.table := by rw [← h2.inv.len]; exact List.take_length
  refine ⟨h, h.table.flatten.map toEntry ++ ds, h1, hp, ?_, ?_⟩
  · simp only [free, htake, keyCalls_append, List.filterMap_append]
    refine List.perm_append_comm.trans (List.Perm.append ?_ hk)
    have : ∀ ns : List (HashNode κ δ φ), keyCalls (ns.flatMap fun n => cleanupCalls n.key n.keyDestroy n.data n.dataDestroy) =
          (ns.map toEntry).filterMap (Entry.keyCall NullKey.isNull) := by
      intro ns
      induction ns with
      | nil => rfl
      | cons n ns ih =>
        rw [List.flatMap_cons, keyCalls_append, keyCalls_cleanup, ih, List.map_cons, List.filterMap_cons]
        cases Entry.keyCall NullKey.isNull (toEntry n) <;> rfl
    rw [this]
  · simp only [free, htake, dataCalls_append, List.filterMap_append]
    refine List.perm_append_comm.trans (List.Perm.append ?_ hd)
    have : ∀ ns : List (HashNode κ δ φ), dataCalls (ns.flatMap fun n => cleanupCalls n.key n.keyDestroy n.data n.dataDestroy) =
          (ns.map toEntry).filterMap Entry.dataCall := by
      intro ns
      induction ns with
      | nil => rfl
      | cons n ns ih =>
        rw [List.flatMap_cons, dataCalls_append, dataCalls_cleanup, ih, List.map_cons, List.filterMap_cons]
        cases Entry.dataCall (toEntry n) <;> rfl
    rw [this]

example : ((newFull hashInt hashEqualInt 1 : AxlHash Int Nat Nat).run
    [.insert ⟨4, none, some 1, some 0⟩, .insert ⟨4, some 7, some 2, some 0⟩, .insert ⟨5, none, some 3, some 0⟩,
     .delete 5]).map (fun h => h.free) = some [.data 0 (some 1), .key 7 4, .data 0 (some 2)] := by decide +kernel

/-- **C13, forward**.  Reading a hash with a cursor, from `axl_hash_cursor_new` or from
`axl_hash_cursor_first`, with `axl_hash_cursor_next`, gives every stored pair once (in the order of
`axl_hash_foreach`), and `axl_hash_cursor_has_next` tells whether another pair follows. -/
theorem C13_cursor_reads_each_pair_once {hash : κ → Nat} {eq : κ → κ → Bool} (hc : Consistent hash eq) {step : Nat}
    (hs : 0 < step) (ops : List (Op κ δ φ)) :
    ∃ (h : AxlHash κ δ φ) (es : List (Entry κ δ φ)), (newFull hash eq step).run ops = some h ∧
      Lists eq ops.reverse es ∧ h.foreach (fun _ _ => false) = some (es.map fun e => (e.key, e.data)) ∧
      (∃ c, HashCursor.new h = some c ∧ HashCursor.Reads c (es.map fun e => (some e.key, e.data))) ∧
      ∀ c0 : HashCursor κ δ φ, c0.hash = h → es ≠ [] →
        ∃ c, c0.first = some c ∧ HashCursor.Reads c (es.map fun e => (some e.key, e.data)) := by
  obtain ⟨h, h1, h2⟩ := hist_run ops (hist_new hc hs)
  rw [List.append_nil] at h2
  have hfor : h.foreach (fun _ _ => false) = some ((h.table.flatten.map toEntry).map fun e => (e.key, e.data)) := by
    rw [hist_foreach h2, takeWhile_all (fun _ => false) _ (by simp), List.find?_eq_none.2 (by simp), List.map_map]
    simp [Function.comp_def, toEntry]
  have hread : ∀ c0 : HashCursor κ δ φ, c0.hash = h → (h.table.flatten = [] → c0.node = []) →
      ∃ c, c0.first = some c ∧ HashCursor.Reads c ((h.table.flatten.map toEntry).map fun e => (some e.key, e.data)) := by
    intro c0 hc0 hemp
    subst hc0
    rcases HashCursor.first_spec c0 h2.inv.len with ⟨g1, g2⟩ | ⟨c', q, g1, g2, g3, g4⟩
    · refine ⟨_, g2, ?_⟩
      rw [g1]
      exact .done (by simp [HashCursor.hasItem, hemp g1])
    · refine ⟨c', g1, ?_⟩
      have := HashCursor.reads_spec _ g3 rfl
      rw [g2, ← g4] at this
      rw [List.map_map]
      exact this
  refine ⟨h, _, h1, hist_lists h2, hfor, hread ⟨h, [], 0⟩ rfl (fun _ => rfl), fun c0 hc0 hne => hread c0 hc0 (fun h0 => ?_)⟩
  rw [h0] at hne; exact absurd rfl hne

/-- `axl_hash_cursor_first` on a hash that became empty leaves the cursor on the pair removed. -/
theorem C13_first_on_emptied_hash_keeps_item :
    ∃ (h h' : AxlHash Int Nat Nat) (c c' : HashCursor Int Nat Nat),
      (newFull hashInt hashEqualInt 1).run [.insert ⟨4, none, some 1, none⟩] = some h ∧
      HashCursor.new h = some c ∧ h.run [.remove 4] = some h' ∧
      HashCursor.first { c with hash := h' } = some c' ∧ h'.items = 0 ∧ c'.hasItem = true := by
  refine ⟨_, _, _, _, rfl, rfl, rfl, rfl, rfl, rfl⟩

/-- **C13, last (partial)**.  `axl_hash_cursor_last` selects the last pair of the forward order,
provided some stored key falls outside of slot 0 (`hash k % capacity ≠ 0`); otherwise it selects
nothing even if pairs are stored.  Missing: the pairs of slot 0 are never found by it. -/
theorem C13_cursor_last_partial {hash : κ → Nat} {eq : κ → κ → Bool} (hc : Consistent hash eq) {step : Nat}
    (hs : 0 < step) (ops : List (Op κ δ φ)) :
    ∃ (h : AxlHash κ δ φ) (es : List (Entry κ δ φ)), (newFull hash eq step).run ops = some h ∧
      Lists eq ops.reverse es ∧ h.foreach (fun _ _ => false) = some (es.map fun e => (e.key, e.data)) ∧
      ∀ c0 : HashCursor κ δ φ, c0.hash = h → ∃ c, c0.last = some c ∧
        if ∃ e ∈ es, hash e.key % h.hashSize ≠ 0 then
          HashCursor.Reads c ((es.getLast?.map fun e => (some e.key, e.data)).toList) ∧ es ≠ []
        else c.hasItem = false := by
  obtain ⟨h, h1, h2⟩ := hist_run ops (hist_new hc hs)
  rw [List.append_nil] at h2
  have hfor : h.foreach (fun _ _ => false) = some ((h.table.flatten.map toEntry).map fun e => (e.key, e.data)) := by
    rw [hist_foreach h2, takeWhile_all (fun _ => false) _ (by simp), List.find?_eq_none.2 (by simp), List.map_map]
    simp [Function.comp_def, toEntry]
  refine ⟨h, _, h1, hist_lists h2, hfor, ?_⟩
  intro c0 hc0
  subst hc0
  rcases HashCursor.last_spec c0 h2.inv.len with ⟨g1, g2⟩ | ⟨c', n, q, pre, g1, g2, g3, g4, g5, g6⟩
  · refine ⟨_, g2, ?_⟩
    rw [if_neg]
    · rfl
    · rintro ⟨e, he, hne⟩
      rw [List.mem_map] at he
      obtain ⟨m, hm, rfl⟩ := he
      rw [List.mem_flatten] at hm
      obtain ⟨ch, hch, hmc⟩ := hm
      obtain ⟨p, hp⟩ := List.getElem?_of_mem hch
      have hpl := h2.inv.place p ch hp m hmc
      rw [h2.hash_eq] at hpl
      have hpl' : hash (toEntry m).key % c0.hash.hashSize = p := hpl
      rw [hpl'] at hne
      have hin : m ∈ (c0.hash.table.drop 1).flatten := by
        rw [List.mem_flatten]
        refine ⟨ch, ?_, hmc⟩
        refine List.mem_of_getElem? (i := p - 1) ?_
        rw [List.getElem?_drop]
        have : 1 + (p - 1) = p := by omega
        rw [this]; exact hp
      rw [g1] at hin; cases hin
  · refine ⟨c', g1, ?_⟩
    have hch := g4.chain
    rw [g2, g5] at hch
    have hmem : n ∈ c0.hash.table.flatten := by
      rw [List.mem_flatten]; exact ⟨_, List.mem_of_getElem? hch, by simp⟩
    have hpl := h2.inv.place q _ hch n (by simp)
    rw [h2.hash_eq] at hpl
    rw [if_pos ⟨toEntry n, List.mem_map_of_mem hmem, by show hash n.key % _ ≠ 0; omega⟩]
    have hq : q < c0.hash.table.length := by rw [List.getElem?_eq_some_iff] at hch; exact hch.1
    have hflat : c0.hash.table.flatten = ((c0.hash.table.take q).flatten ++ pre) ++ [n] := by
      have e1 := List.drop_eq_getElem_cons hq
      have e2 : c0.hash.table[q] = pre ++ [n] := by
        rw [List.getElem?_eq_getElem hq] at hch; exact Option.some.inj hch
      conv => lhs; rw [← List.take_append_drop q c0.hash.table]
      rw [List.flatten_append, e1, List.flatten_cons, g6, e2]; simp
    refine ⟨?_, by rw [hflat]; simp⟩
    have hr := HashCursor.reads_spec _ g4 rfl
    rw [g2, g6, g5] at hr
    rw [hflat]
    simpa [toEntry] using hr

example : ∃ (h : AxlHash Int Nat Nat) (c : HashCursor Int Nat Nat),
    (newFull hashInt hashEqualInt 10).run [.insert ⟨4, none, some 1, none⟩, .insert ⟨7, none, some 2, none⟩] = some h ∧
    HashCursor.last ⟨h, [], 0⟩ = some c ∧ c.getKey = some 7 := ⟨_, _, rfl, rfl, rfl⟩

/-- `axl_hash_cursor_last` finds no item in a hash of one pair whose key falls in slot 0. -/
theorem C13_last_misses_slot_zero :
    ∃ (h : AxlHash Int Nat Nat) (c : HashCursor Int Nat Nat),
      (new hashInt hashEqualInt).run [.insert ⟨20, none, some 1, none⟩] = some h ∧
      HashCursor.last ⟨h, [], 0⟩ = some c ∧ h.items = 1 ∧ c.hasItem = false :=
  ⟨_, _, rfl, rfl, rfl, rfl⟩

/-- **C13, removal**.  Removing through a cursor until it has no item, starting at the first pair,
empties the hash and destroys every pair once. -/
theorem C13_cursor_remove_all {hash : κ → Nat} {eq : κ → κ → Bool} (hc : Consistent hash eq) {step : Nat}
    (hs : 0 < step) (ops : List (Op κ δ φ)) :
    ∃ (h h' : AxlHash κ δ φ) (c : HashCursor κ δ φ) (es : List (Entry κ δ φ)), (newFull hash eq step).run ops = some h ∧
      Lists eq ops.reverse es ∧ HashCursor.new h = some c ∧ HashCursor.RemovesAll c h' ∧ h'.items = 0 ∧
      (∀ k, h'.exists k = some false) ∧
      keyCalls h'.log = keyCalls h.log ++ es.filterMap (Entry.keyCall NullKey.isNull) ∧
      dataCalls h'.log = dataCalls h.log ++ es.filterMap Entry.dataCall := by
  obtain ⟨h, h1, h2⟩ := hist_run ops (hist_new hc hs)
  rw [List.append_nil] at h2
  have e1 : ∀ ns : List (HashNode κ δ φ), keyCalls (ns.flatMap destroyNode) =
      (ns.map toEntry).filterMap (Entry.keyCall NullKey.isNull) := by
    intro ns
    induction ns with
    | nil => rfl
    | cons n ns ih =>
      rw [List.flatMap_cons, keyCalls_append, keyCalls_destroyNode, ih, List.map_cons, List.filterMap_cons]
      cases Entry.keyCall NullKey.isNull (toEntry n) <;> rfl
  have e2 : ∀ ns : List (HashNode κ δ φ), dataCalls (ns.flatMap destroyNode) =
      (ns.map toEntry).filterMap Entry.dataCall := by
    intro ns
    induction ns with
    | nil => rfl
    | cons n ns ih =>
      rw [List.flatMap_cons, dataCalls_append, dataCalls_destroyNode, ih, List.map_cons, List.filterMap_cons]
      cases Entry.dataCall (toEntry n) <;> rfl
  rcases HashCursor.first_spec ⟨h, [], 0⟩ h2.inv.len with ⟨g1, g2⟩ | ⟨c', q, g1, g2, g3, g4⟩
  · have g1' : h.table.flatten = [] := g1
    refine ⟨h, h, _, _, h1, hist_lists h2, g2, .done rfl, ?_, ?_, ?_, ?_⟩
    · rw [h2.inv.items, g1']; rfl
    · intro k
      unfold AxlHash.exists
      rw [lookup_spec h2.inv.toTInv, g1']; rfl
    · simp [g1']
    · simp [g1']
  · have hch : c'.hash = h := g2
    subst hch
    obtain ⟨h', m1, m2, m3, m4⟩ := HashCursor.removesAll_spec _ g3 h2.inv g4 rfl
    refine ⟨c'.hash, h', c', _, h1, hist_lists h2, g1, m1, m3, ?_, ?_, ?_⟩
    · intro k
      have := m2.items
      rw [m3] at this
      unfold AxlHash.exists
      rw [lookup_spec m2.toTInv, List.eq_nil_of_length_eq_zero this.symm]; rfl
    · rw [m4, keyCalls_append, e1]
    · rw [m4, dataCalls_append, e2]

/-- **C13, removal of some pairs (negation)**.  After removing the last pair of a slot the cursor is
back on the first pair of that slot: reading a hash while removing one pair visits another twice.
Here pairs 3 and 1 share a slot; they are visited in the order 3, 1; 1 is removed; 3 comes again. -/
theorem C13_cursor_remove_revisits :
    ∃ (h : AxlHash Int Nat Nat) (c c1 c2 : HashCursor Int Nat Nat),
      (newFull hashInt hashEqualInt 2).run [.insert ⟨1, none, some 10, none⟩, .insert ⟨3, none, some 30, none⟩] = some h ∧
      HashCursor.new h = some c ∧ c.getKey = some 3 ∧ c.next = some c1 ∧ c1.getKey = some 1 ∧
      c1.remove = some c2 ∧ c2.hasItem = true ∧ c2.getKey = some 3 :=
  ⟨_, _, _, _, rfl, rfl, rfl, rfl, rfl, rfl, rfl, rfl⟩

end Axl
