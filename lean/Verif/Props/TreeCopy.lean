/-
C33, the memory of a copy: axl_node_copy makes a tree of its own.
-/
import Verif.Proofs.TreeMove

namespace Axl.Heap
open Spec.Tree Spec.Tree.Forest

theorem run_append_op (ops : List Op) (op : Op) : ∀ (h : Heap),
    h.run (ops ++ [op]) = (h.run ops).bind fun h => h.exec op := by
  induction ops with
  | nil => intro h; simp [Heap.run]
  | cons o t ih =>
    intro h
    simp only [List.cons_append, Heap.run]
    cases h.exec o with
    | none => rfl
    | some h1 => simp [ih]

theorem forest_run_append (ops ops' : List Op) : ∀ (f : Forest), f.run (ops ++ ops') = (f.run ops).run ops' := by
  induction ops with
  | nil => intro f; rfl
  | cons o t ih => intro f; exact ih _

theorem fits_append (ops ops' : List Op) : ∀ (f : Forest),
    f.Fits (ops ++ ops') = (f.Fits ops && (f.run ops).Fits ops') := by
  induction ops with
  | nil => intro f; simp [Fits, Forest.run]
  | cons o t ih => intro f; simp [Fits, Forest.run, ih, Bool.and_assoc]

/-- A tree whose nodes stayed as they were is like itself. -/
theorem sameTree_self {f g : Forest} (T : Tame f)
    (hk : ∀ m, f.live m = true → g.live m = true ∧ g.name m = f.name m ∧ g.kids m = f.kids m)
    {n : Nat} (hn : f.live n = true) : SameTree f g n n := by
  obtain ⟨rank, hr⟩ := T.rank
  have all : ∀ (k n : Nat), rank n < k → f.live n = true → SameTree f g n n := by
    intro k
    induction k with
    | zero => intro n h; omega
    | succ k ih =>
      intro n h1 h2
      obtain ⟨a, b, c⟩ := hk n h2
      refine .mk a b ?_
      rw [c]
      have : ∀ l : List Child, (∀ x, Child.node x ∈ l → Edge f n x) → SameKids f g l l := by
        intro l
        induction l with
        | nil => intro _; exact .nil
        | cons x t iht =>
          intro hl
          cases x with
          | text k s => exact .text (iht fun x hx => hl x (by simp [hx]))
          | node m =>
            have e := hl m (by simp)
            exact .node (ih m (by have := hr _ _ e; omega) (T.closed _ _ e)) (iht fun x hx => hl x (by simp [hx]))
      exact this _ fun x hx => ⟨h2, hx⟩
  exact all (rank n + 1) n (by omega) hn

/-- What is needed below: the copy of a node of a forest. -/
theorem copy_facts {h : Heap} {f : Forest} (I : Inv h f) {n : Nat} (hn : f.live n = true) :
    ∃ h' ns ns', h.nodeCopy n true = some (h', f.next) ∧ Rep h f ns ∧ Rep h' (f.step (.copy n true)) ns' ∧
      Tame (f.step (.copy n true)) ∧ Above f.next h.nextItem h h' f (f.step (.copy n true)) ns ns' ∧
      SameTree f (f.step (.copy n true)) n f.next ∧ f.next < (f.step (.copy n true)).next := by
  obtain ⟨⟨ns, R⟩, T⟩ := I
  obtain ⟨h', ns', e, R', T', A, S, lt⟩ := copies T f.next h f ns n R T
    ⟨fun _ h => h, fun _ _ => rfl, fun _ _ => rfl⟩ hn (depth_next T hn)
  exact ⟨h', ns, ns', by simp only [nodeCopy, R.next]; exact e, R, R', T', A, S, lt⟩

/-- **C33**, the memory.  After any history of C24, copying a node that was not freed, with its
children:
* makes a tree like the one copied, node by node and item by item, whose root is in no other node;
* changes nothing in the memory there was, nor any other node;
* and every node and every item of the copy is in memory that was not in use: the copy shares
  nothing with the node copied, nor with any other tree. -/
theorem C33_apart (ops : List Op) (hf : Forest.empty.Fits ops = true) (n : Nat)
    (hn : (Forest.empty.run ops).live n = true) :
    ∃ h h' r, Heap.empty.run ops = some h ∧ h.nodeCopy n true = some (h', r) ∧
      Heap.empty.run (ops ++ [.copy n true]) = some h' ∧
      SameTree (Forest.empty.run ops) (Forest.empty.run (ops ++ [.copy n true])) n r ∧
      (Forest.empty.run (ops ++ [.copy n true])).attached r = false ∧
      (∀ a c, h.items a = some c → h'.items a = some c) ∧
      (∀ m c, h.nodes m = some c → h'.nodes m = some c) ∧
      (∀ m, (Forest.empty.run ops).live m = true →
        (Forest.empty.run (ops ++ [.copy n true])).name m = (Forest.empty.run ops).name m ∧
        (Forest.empty.run (ops ++ [.copy n true])).kids m = (Forest.empty.run ops).kids m) ∧
      (∀ m, (Forest.empty.run (ops ++ [.copy n true])).below r m = true →
        h.nodes m = none ∧ (∀ i a, h'.itemAt m i = some a → h.items a = none) ∧
        h'.Shows m ((Forest.empty.run (ops ++ [.copy n true])).name m)
          ((Forest.empty.run (ops ++ [.copy n true])).kids m)) := by
  obtain ⟨h, e, I⟩ := inv_run ops inv_empty hf
  rw [forest_run_append]
  generalize Forest.empty.run ops = f at hn I ⊢
  obtain ⟨h', ns, ns', e', R, R', T', A, S, lt⟩ := copy_facts I hn
  have T := I.2
  change ∃ h h' r, _ ∧ _ ∧ _ ∧ SameTree f (f.step (.copy n true)) n r ∧ (f.step (.copy n true)).attached r = false ∧ _
  have Lr : (f.step (.copy n true)).live f.next = true := A.made _ (Nat.le_refl _) lt
  refine ⟨h, h', f.next, e, e', ?_, S, ?_, ?_, ?_, ?_, ?_⟩
  · rw [run_append_op, e]; simp [exec, e']
  · rw [← Bool.not_eq_true, attached_iff T']
    rintro ⟨q, hq⟩; exact A.root_free T q hq
  · intro a c hc
    rw [A.items a]
    · exact hc
    · apply Decidable.byContradiction
      intro hx
      rw [R.fresh a (by omega)] at hc; cases hc
  · intro m c hc
    rw [A.nodes m]
    · exact hc
    · cases hl : f.live m with
      | true => exact T.bound m hl
      | false => rw [R.dead m hl] at hc; cases hc
  · intro m hm
    have := T.bound m hm
    exact ⟨A.name m this, A.kids m this⟩
  · intro m hm
    rw [show (f.run [.copy n true]).below f.next m = (f.step (.copy n true)).below f.next m from rfl,
      below_iff T' Lr] at hm
    have hge := A.reach (Nat.le_refl _) hm
    have Lm := T'.reach_live Lr hm
    refine ⟨R.dead m ?_, ?_, R'.shows Lm⟩
    · cases hl : f.live m with
      | false => rfl
      | true => have := T.bound m hl; omega
    · intro i a ha
      have : a ∈ (ns' m).map Prod.fst := by
        cases hi : ((f.step (.copy n true)).kids m)[i]? with
        | none =>
          exfalso
          obtain ⟨hd, hx⟩ := R'.nodes m Lm
          have hlen : (ns' m).length ≤ i := by
            rw [R'.length_kids Lm]; exact List.getElem?_eq_none_iff.mp hi
          unfold itemAt itemFirst at ha
          rw [hx] at ha
          simp only [Option.map_some, Option.bind_some] at ha
          have beyond : ∀ (l : List (Nat × Info)) (i : Nat) (p : Option Nat), l.length ≤ i → Seg h'.items p l none →
              h'.nextTimes i (headAddr l none) = none := by
            intro l
            induction l with
            | nil => intro i p _ _; cases i <;> rfl
            | cons x t ih =>
              intro i p hl hs
              obtain ⟨b, j⟩ := x
              cases i with
              | zero => simp at hl
              | succ i =>
                simp only [headAddr_cons, nextTimes, itemNext]
                rw [hs.1]
                exact ih i _ (by simpa using hl) hs.2
          rw [beyond _ i none hlen (R'.seg m Lm)] at ha
          cases ha
        | some v =>
          obtain ⟨A1, B1, b, h1, h2, _⟩ := R'.itemAt Lm hi
          rw [ha] at h1; cases h1
          rw [h2]; simp
      exact R.fresh a (A.addrs m a hge Lm this)

/-- A history for the examples: a tree of three levels with texts, changed along the way. -/
def copyOps : List Op :=
  [.create "root".toList, .create "a".toList, .create "b".toList, .setChild 0 (.node 1),
   .setChild 0 (.text .content "x".toList), .setChild 1 (.text .comment "c".toList), .setChild 1 (.node 2),
   .setChild 2 (.text .cdata "y".toList), .create "d".toList, .setAfter 0 0 (.node 3), .removeNode 3 true]

example : Forest.empty.Fits copyOps = true ∧ (Forest.empty.run copyOps).live 0 = true := by decide
example : (Forest.empty.run (copyOps ++ [.copy 0 true])).kids 4 = [.node 5, .text .content "x".toList] ∧
    (Forest.empty.run (copyOps ++ [.copy 0 true])).kids 5 = [.text .comment "c".toList, .node 6] ∧
    (Forest.empty.run (copyOps ++ [.copy 0 true])).kids 6 = [.text .cdata "y".toList] := by decide

/-- **C33**, the memory.  The copy lives on when the node copied is freed, and the node copied when
the copy is freed: in both cases what is left is as it was. -/
theorem C33_freed_apart (ops : List Op) (hf : Forest.empty.Fits ops = true) (n : Nat)
    (hn : (Forest.empty.run ops).live n = true) (ha : (Forest.empty.run ops).attached n = false) :
    ∃ h r, (∃ h1, Heap.empty.run ops = some h ∧ h.nodeCopy n true = some (h1, r)) ∧
      (Forest.empty.Fits (ops ++ [.copy n true, .free n]) = true ∧
        SameTree (Forest.empty.run ops) (Forest.empty.run (ops ++ [.copy n true, .free n])) n r) ∧
      (Forest.empty.Fits (ops ++ [.copy n true, .free r]) = true ∧
        SameTree (Forest.empty.run ops) (Forest.empty.run (ops ++ [.copy n true, .free r])) n n) := by
  obtain ⟨h, e, I⟩ := inv_run ops inv_empty hf
  simp only [forest_run_append, fits_append, hf, Bool.true_and]
  generalize Forest.empty.run ops = f at hn ha I ⊢
  obtain ⟨h', ns, ns', e', R, R', T', A, S, lt⟩ := copy_facts I hn
  have T := I.2
  have hnlt := T.bound n hn
  have Lr : (f.step (.copy n true)).live f.next = true := A.made _ (Nat.le_refl _) lt
  have Ln : (f.step (.copy n true)).live n = true := by rw [A.live n hnlt]; exact hn
  have old_edge : ∀ q c, q < f.next → Edge (f.step (.copy n true)) q c → c < f.next := by
    intro q c hq ec
    exact T.bound _ (T.closed q c ⟨by rw [← A.live q hq]; exact ec.1, by rw [← A.kids q hq]; exact ec.2⟩)
  have old_reach : ∀ q m, q < f.next → Reach (f.step (.copy n true)) q m → m < f.next := by
    intro q m hq hr
    induction hr with
    | refl => exact hq
    | tail _ ec ih => exact old_edge _ _ ih ec
  refine ⟨h, f.next, ⟨h', e, e'⟩, ⟨?_, ?_⟩, ⟨?_, ?_⟩⟩
  · have hb : (f.step (.copy n true)).attached n = false := by
      rw [← Bool.not_eq_true, attached_iff T']
      rintro ⟨q, hq⟩
      rw [← Bool.not_eq_true, attached_iff T] at ha
      by_cases hqn : q < f.next
      · exact ha ⟨q, by rw [← A.live q hqn]; exact hq.1, by rw [← A.kids q hqn]; exact hq.2⟩
      · have := A.edges q n (by omega) hq; omega
    simp [Fits, fits, hn, Ln, hb]
  · refine sameTree_keep (g := f.step (.copy n true)) (B := f.next - 1)
      (fun q c hq ec => by have := A.edges q c (by omega) ec; omega) ?_ S (by omega)
    intro m hm hl
    refine ⟨?_, rfl, rfl⟩
    change ((f.step (.copy n true)).kill n).live m = true
    rw [live_kill T' Ln]
    exact ⟨hl, fun hr => by have := old_reach n m hnlt hr; omega⟩
  · have hb : (f.step (.copy n true)).attached f.next = false := by
      rw [← Bool.not_eq_true, attached_iff T']
      rintro ⟨q, hq⟩; exact A.root_free T q hq
    simp [Fits, fits, hn, Lr, hb]
  · refine sameTree_self T ?_ hn
    intro m hm
    have hlt := T.bound m hm
    refine ⟨?_, A.name m hlt, A.kids m hlt⟩
    change ((f.step (.copy n true)).kill f.next).live m = true
    rw [live_kill T' Lr]
    exact ⟨by rw [A.live m hlt]; exact hm, fun hr => by have := A.reach (Nat.le_refl _) hr; omega⟩

example : (Forest.empty.run copyOps).attached 0 = false := by decide

/-- Without the children: a node with the same name and none. -/
theorem C33_without_childs (ops : List Op) (hf : Forest.empty.Fits ops = true) (n : Nat)
    (hn : (Forest.empty.run ops).live n = true) :
    ∃ h h' r, Heap.empty.run ops = some h ∧ h.nodeCopy n false = some (h', r) ∧ h.nodes r = none ∧
      h'.Shows r ((Forest.empty.run ops).name n) [] ∧ h'.items = h.items ∧
      (∀ m, m ≠ r → h'.nodes m = h.nodes m) := by
  obtain ⟨h, e, I⟩ := inv_run ops inv_empty hf
  generalize Forest.empty.run ops = f at hn I ⊢
  obtain ⟨h', e', I'⟩ := inv_copy I hn false
  have I2 := I
  obtain ⟨⟨ns, R⟩, T⟩ := I
  obtain ⟨hd, hx⟩ := R.nodes n hn
  have := e'
  simp only [nodeCopy, hx, Option.map_some, Option.some.injEq] at this
  have hh : h' = (h.create (f.name n)).1 := by rw [this]
  refine ⟨h, h', f.next, e, e', ?_, ?_, ?_, ?_⟩
  · apply R.dead
    cases hl : f.live f.next with
    | false => rfl
    | true => have := T.bound _ hl; omega
  · have s := I'.shows (n := f.next) (by simp [step, add])
    simpa [step, add] using s
  · rw [hh]; rfl
  · intro m hm; rw [hh]; simp [create, R.next, hm]

end Axl.Heap
