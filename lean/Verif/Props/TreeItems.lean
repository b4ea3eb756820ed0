/-
Property C25: moving along the items of a node.
-/
import Verif.Model.TreeItems
import Verif.Props.Tree

namespace Axl.Heap
open Spec.Tree Spec.Tree.Forest

theorem nextTimes_get {m : Heap} : ∀ {l : List (Nat × Info)} {p : Option Nat} (k : Nat), Seg m.items p l none →
    m.nextTimes k (headAddr l none) = l[k]?.map Prod.fst
  | [], _, k, _ => by cases k <;> rfl
  | (a, i) :: l, p, 0, _ => rfl
  | (a, i) :: l, p, k + 1, hs => by
    simp only [headAddr_cons, nextTimes, itemNext]
    rw [hs.1]
    exact nextTimes_get k hs.2

theorem lastAddr_get (l : List (Nat × Info)) : lastAddr l none = l.getLast?.map Prod.fst := by
  rcases eq_nil_or_concat' l with rfl | ⟨t, a, x, rfl⟩
  · rfl
  · simp [lastAddr_append]

theorem Rep.itemAt_get {h : Heap} {f : Forest} {ns : Nat → List (Nat × Info)} (R : Rep h f ns) {p : Nat} (hp : f.live p = true) (k : Nat) :
    h.itemAt p k = (ns p)[k]?.map Prod.fst := by
  obtain ⟨hd, hn⟩ := R.nodes p hp
  unfold Heap.itemAt itemFirst
  rw [hn]
  simp only [Option.map_some, Option.bind_some]
  exact nextTimes_get k (R.seg p hp)

/-- **C25** (items).  After any history of C24, the item at each position of a node holds the child at that position and has the node as
its parent; axl_item_get_next and axl_item_get_previous give the items at the positions beside it, NULL at the ends; the last item is
the one at the last position; and from a child that is a node, axl_item_node_holder gives its item, and axl_item_node_next and
axl_item_node_previous the items beside it. -/
theorem C25_items (ops : List Op) (hf : Forest.empty.Fits ops = true) :
    ∃ h, Heap.empty.run ops = some h ∧ ∀ p, (Forest.empty.run ops).live p = true →
      h.itemLast p = some (if (Forest.empty.run ops).kids p = [] then none else h.itemAt p (((Forest.empty.run ops).kids p).length - 1)) ∧
      h.itemAt p ((Forest.empty.run ops).kids p).length = none ∧
      ∀ i v, ((Forest.empty.run ops).kids p)[i]? = some v → ∃ a, h.itemAt p i = some a ∧
        h.itemData a = some v ∧ h.itemParent a = some (some p) ∧
        h.itemNext a = some (h.itemAt p (i + 1)) ∧
        h.itemPrev a = some (if i = 0 then none else h.itemAt p (i - 1)) ∧
        ∀ m, v = .node m → h.nodeHolder m = some (some a) ∧
          h.nodeItemNext m = some (h.itemAt p (i + 1)) ∧
          h.nodeItemPrev m = some (if i = 0 then none else h.itemAt p (i - 1)) := by
  obtain ⟨h, e, ⟨ns, R⟩, T⟩ := inv_run ops inv_empty hf
  refine ⟨h, e, fun p hp => ?_⟩
  have hlen : ((Forest.empty.run ops).kids p).length = (ns p).length := by rw [R.kids_eq hp, List.length_map]
  refine ⟨?_, ?_, fun i v hi => ?_⟩
  · obtain ⟨hd, hn⟩ := R.nodes p hp
    simp only [itemLast, hn, Option.map_some, Option.some.injEq]
    rw [R.itemAt_get hp, lastAddr_get, hlen, ← List.getLast?_eq_getElem?]
    split
    · next h0 =>
      have : ns p = [] := List.eq_nil_of_length_eq_zero (by rw [← hlen, h0]; rfl)
      rw [this]; rfl
    · rfl
  · rw [R.itemAt_get hp, hlen]; simp
  · obtain ⟨A, B, a, h1, h2, h3, -, -⟩ := R.itemAt hp hi
    have hs := R.seg p hp
    rw [h2] at hs
    have hm := seg_mid hs
    have hnext : headAddr B none = h.itemAt p (i + 1) := by
      rw [R.itemAt_get hp, h2, ← h3]
      have : (A ++ (a, (⟨some p, v⟩ : Info)) :: B)[A.length + 1]? = B[0]? := by
        rw [List.getElem?_append_right (by omega)]; simp
      rw [this]
      cases B <;> rfl
    have hprev : lastAddr A none = if i = 0 then none else h.itemAt p (i - 1) := by
      rw [lastAddr_get]
      split
      · next h0 =>
        have : A = [] := List.eq_nil_of_length_eq_zero (by omega)
        rw [this]; rfl
      · next h0 =>
        rw [R.itemAt_get hp, h2, List.getElem?_append_left (by omega), List.getLast?_eq_getElem?, h3]
    have hN : h.itemNext a = some (h.itemAt p (i + 1)) := by simp [itemNext, hm, hnext]
    have hP : h.itemPrev a = some (if i = 0 then none else h.itemAt p (i - 1)) := by simp only [itemPrev, hm, Option.map_some, hprev]
    refine ⟨a, h1, by simp [itemData, hm], by simp [itemParent, hm], hN, hP, ?_⟩
    rintro m rfl
    obtain ⟨nd, g1, g2⟩ := R.child p a m hp (by rw [h2]; simp)
    refine ⟨by simp [nodeHolder, g1, g2], ?_, ?_⟩
    · simp only [nodeItemNext, g1, g2]; exact hN
    · simp only [nodeItemPrev, g1, g2]; exact hP

/-- In the sample: from the fourth child back to the third, which is a text. -/
example : Forest.empty.Fits sampleOps = true ∧ (Forest.empty.run sampleOps).live 0 = true ∧
    ((Forest.empty.run sampleOps).kids 0)[3]? = some (.node 4) ∧
    (((Heap.empty.run sampleOps).bind fun h => h.nodeItemPrev 4).bind fun o => o.bind fun a =>
      (Heap.empty.run sampleOps).bind fun h => h.itemData a) = some (.text .content "y".toList) := by decide +kernel

end Axl.Heap
