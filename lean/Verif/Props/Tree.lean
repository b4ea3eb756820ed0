/-
C24 and C25: the tree of nodes and items.
-/
import Verif.Proofs.TreeNav
import Verif.Props.List

namespace Axl.Heap
open Spec.Tree Spec.Tree.Forest

/-- A history used in the examples: two levels, text between the nodes, items taken out, exchanged
and transferred. -/
def sampleOps : List Op :=
  [.create "root".toList, .create "a".toList, .create "b".toList, .create "c".toList,
   .setChild 0 (.node 1), .setChild 0 (.text .content "x".toList), .setAfter 0 0 (.text .comment "note".toList),
   .setChild 0 (.node 2), .setChild 2 (.text .content "y".toList), .setChildRef 2 (.node 3),
   .removeItem 0 1 true, .create "d".toList, .replaceItem 0 1 (.node 4) true, .create "e".toList,
   .setChild 4 (.text .pi "p".toList), .transfer 2 4, .transferAfter 4 0 0, .removeNode 3 false,
   .setChild 2 (.node 3), .replaceNode 3 5 true, .create "f".toList, .setChild 6 (.text .cdata "z".toList),
   .setIsEmpty 6, .free 6]

/-- **C24**, for the histories in which an item that holds text is removed or exchanged through the
item functions only when it is neither the first nor the last child, axl_node_set_is_empty is not
used on mixed content, a node is removed only while it is in the tree, and children are transferred
to a node that is not below their parent: after the history, every node that was not freed shows
exactly the children it should have, in both directions, with the right parents, and everything
reachable is allocated; and every node that was freed is gone.  The theorems that follow show that
these restrictions are needed: for the other histories the property is false of the code. -/
theorem C24_tree_partial (ops : List Op) (hf : Forest.empty.Fits ops = true) :
    ∃ h, Heap.empty.run ops = some h ∧
      (∀ n, (Forest.empty.run ops).live n = true →
        h.Shows n ((Forest.empty.run ops).name n) ((Forest.empty.run ops).kids n)) ∧
      (∀ n, (Forest.empty.run ops).live n = false → h.nodes n = none) := by
  obtain ⟨h, e, I⟩ := inv_run ops inv_empty hf
  refine ⟨h, e, fun n hn => I.shows hn, ?_⟩
  obtain ⟨⟨_, R⟩, _⟩ := I
  exact R.dead

example : Forest.empty.Fits sampleOps = true := by decide
example : (Forest.empty.run sampleOps).kids 0 =
    [.node 1, .text .pi "p".toList, .text .content "y".toList, .node 4, .node 2] := by decide
example : (Forest.empty.run sampleOps).kids 2 = [.node 5] := by decide
example : (Forest.empty.run sampleOps).live 3 = false := by decide

/-- The children of a node form a tree: along the history a node is the child of one node at most,
and it is there once. -/
theorem C24_one_place (ops : List Op) (hf : Forest.empty.Fits ops = true) (p q n : Nat)
    (hp : (Forest.empty.run ops).live p = true) (hq : (Forest.empty.run ops).live q = true)
    (h1 : Child.node n ∈ (Forest.empty.run ops).kids p) (h2 : Child.node n ∈ (Forest.empty.run ops).kids q) :
    p = q ∧ ((Forest.empty.run ops).kids p).count (.node n) = 1 ∧ (Forest.empty.run ops).live n = true := by
  obtain ⟨h, e, ⟨ns, R⟩, T⟩ := inv_run ops inv_empty hf
  refine ⟨R.single p q n ⟨hp, h1⟩ ⟨hq, h2⟩, ?_, T.closed p n ⟨hp, h1⟩⟩
  have hnd := R.nodup_kids hp
  generalize (Forest.empty.run ops).kids p = l at hnd h1
  have hc : ∀ l : List Child, l.count (.node n) = (nodesOf l).count n := by
    intro l
    induction l with
    | nil => rfl
    | cons c t ih =>
      cases c with
      | text k s => simp [nodesOf, ih]
      | node m => simp [nodesOf, ih, List.count_cons]
  rw [hc]
  exact List.Nodup.count hnd |>.trans (by simp [mem_nodesOf.mpr h1])

example : Child.node 5 ∈ (Forest.empty.run sampleOps).kids 2 := by decide

/-- The property is false of the code when the first child is text and is removed with
axl_item_remove: the freed item is still the first child. -/
theorem C24_first_text_removed :
    ∃ h a, Heap.empty.run [.create "a".toList, .setChild 0 (.text .content "x".toList),
        .setChild 0 (.text .content "y".toList), .removeItem 0 0 true] = some h ∧
      h.itemFirst 0 = some (some a) ∧ h.items a = none :=
  ⟨_, 0, rfl, rfl, rfl⟩

/-- The same for the last child. -/
theorem C24_last_text_removed :
    ∃ h a, Heap.empty.run [.create "a".toList, .setChild 0 (.text .content "x".toList),
        .setChild 0 (.text .content "y".toList), .removeItem 0 1 true] = some h ∧
      h.itemLast 0 = some (some a) ∧ h.items a = none :=
  ⟨_, 1, rfl, rfl, rfl⟩

/-- The same with axl_item_replace. -/
theorem C24_first_text_replaced :
    ∃ h a, Heap.empty.run [.create "a".toList, .setChild 0 (.text .content "x".toList),
        .setChild 0 (.text .content "y".toList), .replaceItem 0 0 (.text .content "z".toList) true] = some h ∧
      h.itemFirst 0 = some (some a) ∧ h.items a = none :=
  ⟨_, 0, rfl, rfl, rfl⟩

/-- axl_node_set_is_empty on mixed content leaves a freed item as the first child; a second call
uses it. -/
theorem C24_mixed_content_emptied :
    (∃ h a, Heap.empty.run [.create "a".toList, .create "b".toList, .setChild 0 (.text .content "x".toList),
        .setChild 0 (.node 1), .setIsEmpty 0] = some h ∧ h.itemFirst 0 = some (some a) ∧ h.items a = none) ∧
    Heap.empty.run [.create "a".toList, .create "b".toList, .setChild 0 (.text .content "x".toList),
        .setChild 0 (.node 1), .setIsEmpty 0, .setIsEmpty 0] = none :=
  ⟨⟨_, 0, rfl, rfl, rfl⟩, rfl⟩

/-- axl_node_remove of a node already taken out with axl_node_deattach loses the other children of
its old parent. -/
theorem C24_second_removal_loses_children :
    ∃ h, Heap.empty.run [.create "a".toList, .create "b".toList, .create "c".toList, .setChild 0 (.node 1),
        .setChild 0 (.node 2), .removeNode 1 false, .removeNode 1 true] = some h ∧
      h.itemFirst 0 = some none ∧ h.getParent 2 = some (some 0) :=
  ⟨_, rfl, rfl, rfl⟩

/-- After axl_node_deattach, axl_node_get_parent still answers the old parent. -/
theorem C24_parent_after_deattach :
    ∃ h, Heap.empty.run [.create "a".toList, .create "b".toList, .setChild 0 (.node 1),
        .removeNode 1 false] = some h ∧ h.getParent 1 = some (some 0) ∧ h.itemFirst 0 = some none :=
  ⟨_, rfl, rfl, rfl⟩

/-- axl_node_transfer_childs from a node to itself loses the children. -/
theorem C24_transfer_to_itself :
    ∃ h, Heap.empty.run [.create "a".toList, .create "b".toList, .setChild 0 (.node 1), .transfer 0 0] = some h ∧
      h.itemFirst 0 = some none ∧ h.getParent 1 = some (some 0) :=
  ⟨_, rfl, rfl, rfl⟩

/-- **C25.** After any history of C24, for every node `n` that was not freed, the functions that
look at its children answer from the sequence of its child nodes. -/
theorem C25_navigation (ops : List Op) (hf : Forest.empty.Fits ops = true) :
    ∃ h, Heap.empty.run ops = some h ∧ ∀ n, (Forest.empty.run ops).live n = true →
      ∀ ks, ks = nodesOf ((Forest.empty.run ops).kids n) →
      h.getFirstChild n = some ks.head? ∧
      h.getLastChild n = some ks.getLast? ∧
      (∀ pos, h.getChildNth n pos = some ks[pos]?) ∧
      h.getChildNum n = some ks.length ∧
      (∀ name, h.getChildCalled n name = some (ks.find? fun c => (Forest.empty.run ops).name c == name)) ∧
      h.haveChilds n = some !ks.isEmpty ∧
      h.isEmpty n = some (((Forest.empty.run ops).kids n).all fun c => !isContent c) ∧
      (∃ l, h.getChilds n = some l ∧ AxlList.Observes l ks) := by
  obtain ⟨h, e, ⟨ns, R⟩, T⟩ := inv_run ops inv_empty hf
  refine ⟨h, e, ?_⟩
  rintro n hn ks rfl
  refine ⟨R.getFirstChild hn, R.getLastChild hn, R.getChildNth hn, R.getChildNum hn, R.getChildCalled T hn,
    R.haveChilds hn, R.isEmpty hn, ?_⟩
  obtain ⟨l, h1, h2⟩ := AxlList.C02_always_return_1_appends false (nodesOf ((Forest.empty.run ops).kids n))
  refine ⟨l, ?_, h2⟩
  obtain ⟨hd, hx⟩ := R.nodes n hn
  simp only [getChilds, hx, Option.bind_eq_bind, Option.bind_some]
  exact childsLoop_spec (ns n) h.nextItem none _ _ (R.length_le hn) (R.seg n hn) (by rw [R.nodesIn_eq hn]; exact h1)

example : nodesOf ((Forest.empty.run sampleOps).kids 0) = [1, 4, 2] := by decide

/-- **C25.** From a child node, axl_node_get_next and axl_node_get_previous (and the functions that
look for a name) move along the sequence of child nodes of its parent. -/
theorem C25_siblings (ops : List Op) (hf : Forest.empty.Fits ops = true) :
    ∃ h, Heap.empty.run ops = some h ∧ ∀ n, (Forest.empty.run ops).live n = true →
      ∀ xs m ys, nodesOf ((Forest.empty.run ops).kids n) = xs ++ m :: ys →
      h.getNext m = some ys.head? ∧ h.getPrevious m = some xs.getLast? ∧ h.getParent m = some (some n) ∧
      (∀ name, h.getNextCalled m name = some (ys.find? fun c => (Forest.empty.run ops).name c == name)) ∧
      (∀ name, h.getPreviousCalled m name =
        some (xs.reverse.find? fun c => (Forest.empty.run ops).name c == name)) := by
  obtain ⟨h, e, ⟨ns, R⟩, T⟩ := inv_run ops inv_empty hf
  refine ⟨h, e, ?_⟩
  intro n hn xs m ys hk
  refine ⟨R.getNext hn hk, R.getPrevious hn hk, ?_, R.getNextCalled T hn hk, R.getPreviousCalled T hn hk⟩
  exact (R.shows hn).parents m (mem_nodesOf.mp (by rw [hk]; simp))

example : nodesOf ((Forest.empty.run sampleOps).kids 0) = [1] ++ 4 :: [2] := by decide

/-- **C25.** axl_node_find_called answers the first node with the name asked for, looking first at the
children in their order and then below each of them in turn (`findIn`).  What it answers is below
the node and has that name, and it answers NULL only if no node below has it. -/
theorem C25_find_called (ops : List Op) (hf : Forest.empty.Fits ops = true) :
    ∃ h, Heap.empty.run ops = some h ∧ ∀ n name f, f = Forest.empty.run ops → f.live n = true →
      h.findCalled n name = some (f.findIn name f.next n) ∧
      (∀ m, f.findIn name f.next n = some m → f.below n m = true ∧ m ≠ n ∧ f.name m = name) ∧
      (f.findIn name f.next n = none → ∀ m, f.below n m = true → m ≠ n → f.name m ≠ name) := by
  obtain ⟨h, e, ⟨ns, R⟩, T⟩ := inv_run ops inv_empty hf
  refine ⟨h, e, ?_⟩
  rintro n name f rfl hn
  refine ⟨R.findCalled T hn name, ?_, ?_⟩
  · intro m hm
    obtain ⟨⟨c, ec, r⟩, k⟩ := Rep.findIn_some T hn hm
    refine ⟨(below_iff T hn).mpr (.head ec r), ?_, k⟩
    rintro rfl
    exact T.no_cycle ec r
  · intro hm m hb hne
    rcases ((below_iff T hn).mp hb).cases_head with rfl | ⟨c, ec, r⟩
    · exact absurd rfl hne
    · exact Rep.findIn_none T hn (depth_next T hn) hm c m ec r

/-- In the sample, "f" is nowhere, "e" is two levels down, and "b" is found among the children although
another node comes first. -/
example : (Forest.empty.run sampleOps).findIn "e".toList 7 0 = some 5 ∧
    (Forest.empty.run sampleOps).findIn "b".toList 7 0 = some 2 ∧
    (Forest.empty.run sampleOps).findIn "f".toList 7 0 = none := by decide

/-- A node in no other has no sibling. -/
theorem C25_root_has_no_siblings (ops : List Op) (hf : Forest.empty.Fits ops = true) :
    ∃ h, Heap.empty.run ops = some h ∧ ∀ n, (Forest.empty.run ops).live n = true →
      (Forest.empty.run ops).attached n = false → h.getNext n = some none ∧ h.getPrevious n = some none := by
  obtain ⟨h, e, ⟨ns, R⟩, T⟩ := inv_run ops inv_empty hf
  refine ⟨h, e, ?_⟩
  intro n hn ha
  obtain ⟨hd, h1⟩ := R.nodes n hn
  cases hd with
  | none => simp [getNext, getPrevious, h1]
  | some a =>
    obtain ⟨⟨prt, hl⟩, _⟩ := R.holder_loose hn h1 rfl (fun p e => by
      rw [(attached_iff T).mpr ⟨p, e⟩] at ha; cases ha)
    have s1 : ∀ k, h.seekNext isNode k none = some none := fun k => by cases k <;> rfl
    have s2 : ∀ k, h.seekPrev isNode k none = some none := fun k => by cases k <;> rfl
    simp [getNext, getPrevious, h1, hl, s1, s2, nodeAt]

example : (Forest.empty.run sampleOps).live 0 = true ∧ (Forest.empty.run sampleOps).attached 0 = false := by decide

end Axl.Heap
