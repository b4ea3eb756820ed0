/-
Property C22: the lookup of an attribute that trims its value.
-/
import Verif.Proofs.AttrMade
import Verif.Model.Dump

namespace Axl
open Spec.Attr Spec.Str Str

/-- **C22** (trimmed lookup).  On attributes that were made in any way, axl_node_get_attribute_value_trimmed gives the value without
the white space around it, or NULL if there is no such attribute, and has no undefined behaviour.  It changes the value stored: other
lookups give the trimmed value from then on.  The other attributes, which attributes there are and their number stay the same, and the
same lookup gives the same answer again. -/
theorem C22_value_trimmed (a : Attrs) (ha : a.Made) (n : List Char) :
    ∃ r b, a.getValueTrimmed n = some (r, b) ∧
      (a.getValue n = some none → r = none ∧ b = a) ∧
      (∀ v, a.getValue n = some (some v) → ∃ t, Trimmed v t ∧ r = some t ∧ b.getValue n = some (some t)) ∧
      (∀ n', n' ≠ n → b.getValue n' = a.getValue n') ∧ (∀ n', b.hasAttribute n' = a.hasAttribute n') ∧
      b.numAttributes = a.numAttributes ∧ ∃ c, b.getValueTrimmed n = some (r, c) := by
  obtain ⟨ps, hr, hn⟩ := ha.rep'
  have hv := (Attrs.rep_find hr n).2
  rcases Attrs.rep_trimmed hr n (fun p hp => (hn p hp).2) with ⟨h0, g⟩ | ⟨v, t, b, h1, h2, g, h3⟩
  · refine ⟨none, a, g, fun _ => ⟨rfl, rfl⟩, ?_, fun _ _ => rfl, fun _ => rfl, rfl, a, g⟩
    intro v e
    rw [hv, h0] at e
    cases e
  · have hb : ∀ k, b.getValue k = _ := fun k => (Attrs.rep_find h3 k).2
    refine ⟨some t, b, g, ?_, ?_, ?_, ?_, ?_, ?_⟩
    · intro e; rw [hv, h1] at e; cases e
    · intro w e
      rw [hv, h1] at e
      cases e
      refine ⟨t, h2, rfl, ?_⟩
      rw [hb, Attrs.find_setPair, if_pos rfl]
      cases hf : ps.find? (fun p => p.1 == n) with
      | none => rw [hf] at h1; cases h1
      | some p => rfl
    · intro n' hne
      rw [hb, Attrs.find_setPair, if_neg hne, (Attrs.rep_find hr n').2]
    · intro n'
      rw [(Attrs.rep_find h3 n').1, (Attrs.rep_find hr n').1]
      congr 1
      rw [Bool.eq_iff_iff, List.any_eq_true, List.any_eq_true]
      constructor
      · rintro ⟨p, hp, e⟩
        have : p.1 ∈ (Attrs.setPair n t ps).map (·.1) := List.mem_map_of_mem hp
        rw [Attrs.setPair_keys] at this
        obtain ⟨q, hq, e'⟩ := List.mem_map.1 this
        exact ⟨q, hq, by rw [e']; exact e⟩
      · rintro ⟨p, hp, e⟩
        have : p.1 ∈ ps.map (·.1) := List.mem_map_of_mem hp
        rw [← Attrs.setPair_keys n t] at this
        obtain ⟨q, hq, e'⟩ := List.mem_map.1 this
        exact ⟨q, hq, by rw [e']; exact e⟩
    · rw [Attrs.rep_numAttributes h3, Attrs.rep_numAttributes hr, Attrs.setPair_length]
    · have hnb := Attrs.nul_setPair h1 h2 hn
      have hf : ((Attrs.setPair n t ps).find? fun p => p.1 == n).map (·.2) = some t := by
        rw [Attrs.find_setPair, if_pos rfl]
        cases hf : ps.find? (fun p => p.1 == n) with
        | none => rw [hf] at h1; cases h1
        | some p => rfl
      rcases Attrs.rep_trimmed h3 n (fun p hp => (hnb p hp).2) with ⟨h0, -⟩ | ⟨v', t', c, k1, k2, k3, -⟩
      · rw [h0] at hf; cases hf
      · rw [hf] at k1
        cases k1
        have := trimmed_unique k2 (trimmed_self h2)
        subst this
        exact ⟨c, k3⟩

/-- The lookup is not only a lookup: the same node is written otherwise after it. -/
theorem C22_trimmed_lookup_changes_document :
    let a := (Attrs.empty.run [.set c!"x" c!" v ", .set c!"y" c!" w"]).getD Attrs.empty
    Dump.nodeDumpPlain (.mk c!"n" a .nil) = some (some (c!"<n x=' v ' y=' w' />" ++ [NUL], 20)) ∧
    (a.getValueTrimmed c!"x").map (·.1) = some (some c!"v") ∧
    ((a.getValueTrimmed c!"x").bind fun r => Dump.nodeDumpPlain (.mk c!"n" r.2 .nil)) =
      some (some (c!"<n x='v' y=' w' />" ++ [NUL], 18)) := by decide +kernel

/-- The hypothesis is met by attributes in the list and in the hash; both are trimmed. -/
example : ∃ a : Attrs, a.Made ∧ (a.getValueTrimmed c!"ke").bind (fun r => r.2.getValue c!"ke") = some (some c!"v") ∧ a.numAttributes = some 12 := by
  refine ⟨(Attrs.empty.run ((List.range 12).map fun i => Op.set ['k', Char.ofNat (97 + i)] c!"\t v \n")).getD Attrs.empty, ?_, by decide +kernel, by decide +kernel⟩
  refine .run ((List.range 12).map fun i => Op.set ['k', Char.ofNat (97 + i)] c!"\t v \n") .empty ?_ ?_
  · intro op hop
    simp only [List.range, List.range.loop, List.map_cons, List.map_nil, List.mem_cons, List.not_mem_nil, or_false] at hop
    rcases hop with rfl | rfl | rfl | rfl | rfl | rfl | rfl | rfl | rfl | rfl | rfl | rfl <;> simp only [Op.texts] <;> decide
  · have : (Attrs.empty.run ((List.range 12).map fun i => Op.set ['k', Char.ofNat (97 + i)] c!"\t v \n")).isSome = true := by decide +kernel
    obtain ⟨a, h⟩ := Option.isSome_iff_exists.1 this
    rw [h]; rfl

end Axl
