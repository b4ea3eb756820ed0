/-
Size, dump and comparison through the pointers are those of the tree that a node stands for.
-/
import Verif.Proofs.TreeNav
import Verif.Proofs.Dump
import Verif.Spec.TreeDump

namespace Axl.Spec.Tree
open Forest

/-- Children that all stand for trees are items. -/
theorem isItems_of {f : Forest} {x : Extra} : ∀ (l : List Child), (∀ c, Child.node c ∈ l → ∃ t, IsTree f x c t) → ∃ i, IsItems f x l i
  | [], _ => ⟨_, .nil⟩
  | .text k s :: l, H => by
    obtain ⟨i, hi⟩ := isItems_of l fun c hc => H c (by simp [hc])
    exact ⟨_, .text hi⟩
  | .node n :: l, H => by
    obtain ⟨i, hi⟩ := isItems_of l fun c hc => H c (by simp [hc])
    obtain ⟨t, ht⟩ := H n (by simp)
    exact ⟨_, .node ht hi⟩

/-- Every node stands for a tree. -/
theorem isTree_depth {f : Forest} (T : Tame f) (x : Extra) : ∀ (d n : Nat), Depth f d n → f.live n = true → ∃ t, IsTree f x n t
  | 0, _, hd, _ => hd.elim
  | d + 1, n, hd, hn => by
    obtain ⟨i, hi⟩ := isItems_of (x := x) (f.kids n) fun c hc => isTree_depth T x d c (hd c ⟨hn, hc⟩) (T.closed n c ⟨hn, hc⟩)
    exact ⟨_, .mk hn hi⟩

mutual
/-- It stands for one tree. -/
theorem isTree_unique {f : Forest} {x : Extra} : ∀ {n : Nat} {t u : Node}, IsTree f x n t → IsTree f x n u → t = u
  | _, _, _, .mk _ h1, .mk _ h2 => by rw [isItems_unique h1 h2]
theorem isItems_unique {f : Forest} {x : Extra} : ∀ {l : List Child} {i j : Items}, IsItems f x l i → IsItems f x l j → i = j
  | _, _, _, .nil, .nil => rfl
  | _, _, _, .text h1, .text h2 => by rw [isItems_unique h1 h2]
  | _, _, _, .node t1 h1, .node t2 h2 => by rw [isTree_unique t1 t2, isItems_unique h1 h2]
end

end Axl.Spec.Tree

namespace Axl.Heap
open Spec.Tree Spec.Tree.Forest Dump

variable {h : Heap} {f : Forest} {ns : Nat → List (Nat × Info)} {x : Extra}

theorem items_isEmpty : ∀ {l : List Child} {i : Items}, IsItems f x l i → i.isEmpty = l.all fun c => !isContent c
  | _, _, .nil => rfl
  | _, _, .text (k := k) H => by
    have := items_isEmpty H
    cases k <;> simp [Items.isEmpty, Extra.leaf, isContent, this]
  | _, _, .node _ H => by simp [Items.isEmpty, isContent, items_isEmpty H]

theorem items_childNum : ∀ {l : List Child} {i : Items}, IsItems f x l i → i.childNum = (nodesOf l).length
  | _, _, .nil => rfl
  | _, _, .text H => by simp [Items.childNum, nodesOf, items_childNum H]
  | _, _, .node _ H => by simp [Items.childNum, nodesOf, items_childNum H]

theorem items_haveChilds : ∀ {l : List Child} {i : Items}, IsItems f x l i → i.haveChilds = !(nodesOf l).isEmpty
  | _, _, .nil => rfl
  | _, _, .text H => by simp [Items.haveChilds, nodesOf, items_haveChilds H]
  | _, _, .node _ H => by simp [Items.haveChilds, nodesOf]

theorem seekBlock : ∀ (l : List (Nat × Info)) (k : Nat) (p : Option Nat) (i : Items), l.length ≤ k → Seg h.items p l none →
    IsItems f x (l.map (·.2.data)) i →
    ∃ o, h.seekNext isBlock k (headAddr l none) = some o ∧ o.isSome = i.haveChildsAux
  | [], k, p, i, _, _, H => by
    cases H
    exact ⟨none, by cases k <;> rfl, rfl⟩
  | (a, c) :: l, 0, _, _, hk, _, _ => by simp at hk
  | (a, c) :: l, k + 1, p, i, hk, hs, H => by
    obtain ⟨q, d⟩ := c
    show ∃ o, h.seekNext isBlock (k + 1) (some a) = some o ∧ _
    simp only [List.map_cons] at H
    simp only [seekNext, hs.1]
    cases d with
    | node m => cases H; exact ⟨some a, rfl, rfl⟩
    | text t s =>
      cases H with
      | text H =>
        have ih := seekBlock l k _ _ (by simpa using hk) hs.2 H
        cases t with
        | pi => exact ⟨some a, rfl, rfl⟩
        | comment => exact ⟨some a, rfl, rfl⟩
        | content => exact ih
        | cdata => exact ih

namespace Rep

theorem haveChildsAux (R : Rep h f ns) {n : Nat} (hn : f.live n = true) {i : Items} (H : IsItems f x (f.kids n) i) :
    h.haveChildsAux n = some i.haveChildsAux := by
  obtain ⟨hd, h1⟩ := R.nodes n hn
  rw [R.kids_eq hn] at H
  obtain ⟨o, e1, e2⟩ := seekBlock (h := h) (ns n) h.nextItem none i (R.length_le hn) (R.seg n hn) H
  simp only [Heap.haveChildsAux, h1, Option.bind_eq_bind, Option.bind_some, e1, e2]

theorem empty_eq (R : Rep h f ns) {n : Nat} (hn : f.live n = true) {i : Items} (H : IsItems f x (f.kids n) i) :
    h.isEmpty n = some i.isEmpty := by rw [R.isEmpty hn, items_isEmpty H]

end Rep

theorem sizeLoop_spec {pretty : Bool} {tabular level : Int} {size : Nat → Option Int} :
    ∀ (l : List (Nat × Info)) (k : Nat) (p : Option Nat) (i : Items), l.length ≤ k → Seg h.items p l none →
    IsItems f x (l.map (·.2.data)) i →
    (∀ m t, Child.node m ∈ l.map (·.2.data) → IsTree f x m t → size m = nodeSize pretty tabular (level + 1) t) →
    sizeLoop x pretty tabular level size h k (headAddr l none) = itemsSize pretty tabular level i
  | [], k, p, i, _, _, H, _ => by
    cases H
    cases k <;> simp [sizeLoop, itemsSize]
  | (a, c) :: l, 0, _, _, hk, _, _, _ => by simp at hk
  | (a, c) :: l, k + 1, p, i, hk, hs, H, G => by
    obtain ⟨q, d⟩ := c
    show sizeLoop x pretty tabular level size h (k + 1) (some a) = _
    simp only [List.map_cons] at H
    simp only [sizeLoop, hs.1]
    cases H with
    | text H =>
      have ih := sizeLoop_spec (size := size) l k _ _ (by simpa using hk) hs.2 H fun m t hm => G m t (by simp [hm])
      simp only [ih, itemsSize]
      rfl
    | node ht H =>
      have ih := sizeLoop_spec (size := size) l k _ _ (by simpa using hk) hs.2 H fun m t hm => G m t (by simp [hm])
      simp only [ih, itemsSize, G _ _ (by simp) ht]
      rfl

theorem sizeDepth_spec (R : Rep h f ns) (T : Tame f) (pretty : Bool) (tabular : Int) : ∀ (d n : Nat) (level : Int) (t : Node), Depth f d n →
    IsTree f x n t → sizeDepth x h pretty tabular d level n = nodeSize pretty tabular level t
  | 0, _, _, _, hd, _ => hd.elim
  | d + 1, n, level, _, hd, .mk (items := i) hn H => by
    obtain ⟨hdr, h1⟩ := R.nodes n hn
    have e := sizeLoop_spec (h := h) (pretty := pretty) (tabular := tabular) (level := level)
      (size := sizeDepth x h pretty tabular d (level + 1)) (ns n) h.nextItem none i (R.length_le hn) (R.seg n hn)
      (by rw [← R.kids_eq hn]; exact H)
      (fun m t hm ht => sizeDepth_spec R T pretty tabular d m (level + 1) t (hd m ⟨hn, by rw [R.kids_eq hn]; exact hm⟩) ht)
    simp only [sizeDepth, h1, R.empty_eq hn H, R.haveChildsAux hn H, Option.bind_eq_bind, Option.bind_some, e, nodeSize]
    cases attrsSize (x.attrs n) with
    | none => rfl
    | some na =>
      simp only [Option.bind_some]
      cases itemsSize pretty tabular level i <;> rfl

theorem dumpLoop_spec {pretty : Bool} {tabular level : Int} {dump : Out → Nat → Option Out} :
    ∀ (l : List (Nat × Info)) (k : Nat) (p : Option Nat) (i : Items) (o : Out), l.length ≤ k → Seg h.items p l none →
    IsItems f x (l.map (·.2.data)) i →
    (∀ m t o, Child.node m ∈ l.map (·.2.data) → IsTree f x m t → dump o m = nodeDump pretty tabular (level + 1) o t) →
    dumpLoop x pretty tabular level dump h k (headAddr l none) o = itemsDump pretty tabular level o i
  | [], k, p, i, o, _, _, H, _ => by
    cases H
    cases k <;> simp [dumpLoop, itemsDump]
  | (a, c) :: l, 0, _, _, _, hk, _, _, _ => by simp at hk
  | (a, c) :: l, k + 1, p, i, o, hk, hs, H, G => by
    obtain ⟨q, d⟩ := c
    show dumpLoop x pretty tabular level dump h (k + 1) (some a) o = _
    simp only [List.map_cons] at H
    simp only [dumpLoop, hs.1]
    cases H with
    | text H =>
      have ih := fun o => dumpLoop_spec (dump := dump) l k _ _ o (by simpa using hk) hs.2 H fun m t o hm => G m t o (by simp [hm])
      simp only [ih, itemsDump]
      rfl
    | node ht H =>
      have ih := fun o => dumpLoop_spec (dump := dump) l k _ _ o (by simpa using hk) hs.2 H fun m t o hm => G m t o (by simp [hm])
      simp only [ih, itemsDump, G _ _ o (by simp) ht]
      rfl

theorem dumpDepth_spec (R : Rep h f ns) (T : Tame f) (pretty : Bool) (tabular : Int) : ∀ (d n : Nat) (level : Int) (o : Out) (t : Node),
    Depth f d n → IsTree f x n t → dumpDepth x h pretty tabular d level o n = nodeDump pretty tabular level o t
  | 0, _, _, _, _, hd, _ => hd.elim
  | d + 1, n, level, o, _, hd, .mk (items := i) hn H => by
    obtain ⟨hdr, h1⟩ := R.nodes n hn
    have e := fun o => dumpLoop_spec (h := h) (pretty := pretty) (tabular := tabular) (level := level)
      (dump := dumpDepth x h pretty tabular d (level + 1)) (ns n) h.nextItem none i o (R.length_le hn) (R.seg n hn)
      (by rw [← R.kids_eq hn]; exact H)
      (fun m t o hm ht => dumpDepth_spec R T pretty tabular d m (level + 1) o t (hd m ⟨hn, by rw [R.kids_eq hn]; exact hm⟩) ht)
    simp only [dumpDepth, h1, R.empty_eq hn H, R.haveChildsAux hn H, Option.bind_eq_bind, Option.bind_some, e, nodeDump]
    cases indentIf pretty tabular level o with
    | none => rfl
    | some o =>
      simp only [Option.bind_some]
      cases dumpOpen o (f.name n) (x.attrs n) with
      | none => rfl
      | some o =>
        simp only [Option.bind_some]
        cases i.isEmpty <;> cases i.haveChildsAux <;> rfl

theorem areEqual_spec (R : Rep h f ns) {n m : Nat} {t u : Node} : IsTree f x n t → IsTree f x m u → h.areEqual x n m = t.areEqual u
  | .mk (items := i) hn H, .mk (items := j) hm K => by
    obtain ⟨hd, h1⟩ := R.nodes n hn
    obtain ⟨hd2, h2⟩ := R.nodes m hm
    simp only [Heap.areEqual, h1, h2, R.empty_eq hn H, R.empty_eq hm K, R.haveChilds hn, R.haveChilds hm, R.getChildNum hn,
      R.getChildNum hm, Option.bind_eq_bind, Option.bind_some, Node.areEqual, Node.name, Node.items, Node.attrs,
      items_haveChilds H, items_haveChilds K, items_childNum H, items_childNum K]

theorem equalLoop_spec (R : Rep h f ns) {trimmed : Bool} {equal : Nat → Nat → Option Bool} :
    ∀ (l l2 : List (Nat × Info)) (k : Nat) (p p2 : Option Nat) (i j : Items), l.length ≤ k → Seg h.items p l none →
    Seg h.items p2 l2 none → IsItems f x (l.map (·.2.data)) i → IsItems f x (l2.map (·.2.data)) j →
    (∀ m t m2 u, Child.node m ∈ l.map (·.2.data) → IsTree f x m t → IsTree f x m2 u → equal m m2 = t.deepEqual trimmed u) →
    equalLoop x trimmed equal h k (headAddr l none) (headAddr l2 none) = i.deepEqual trimmed j
  | [], l2, k, p, p2, i, j, _, _, _, H, K, _ => by
    cases H
    cases l2 with
    | nil =>
      cases K
      cases k <;> simp [equalLoop, headAddr, Items.deepEqual]
    | cons b l2 =>
      obtain ⟨b, q, d⟩ := b
      simp only [List.map_cons] at K
      cases k <;> cases K <;> simp [equalLoop, headAddr, Items.deepEqual]
  | (a, c) :: l, [], k, p, p2, i, j, _, _, _, H, K, _ => by
    obtain ⟨q, d⟩ := c
    cases K
    simp only [List.map_cons] at H
    cases k <;> cases H <;> simp [equalLoop, headAddr, Items.deepEqual]
  | (a, c) :: l, _ :: _, 0, _, _, _, _, hk, _, _, _, _, _ => by simp at hk
  | (a, c) :: l, (b, c2) :: l2, k + 1, p, p2, i, j, hk, hs, hs2, H, K, G => by
    obtain ⟨q, d⟩ := c
    obtain ⟨q2, d2⟩ := c2
    show equalLoop x trimmed equal h (k + 1) (some a) (some b) = _
    simp only [List.map_cons] at H K
    simp only [equalLoop, hs.1, hs2.1]
    have ih := fun i j H K => equalLoop_spec R (trimmed := trimmed) (equal := equal) l l2 k _ _ i j (by simpa using hk) hs.2 hs2.2 H K
      fun m t m2 u hm => G m t m2 u (by simp [hm])
    cases H with
    | text H =>
      cases K with
      | text K =>
        simp only [itemEqual, Items.deepEqual, ih _ _ H K]
        rfl
      | node ht K => simp only [itemEqual, Items.deepEqual]
    | node ht H =>
      cases K with
      | text K => simp only [itemEqual, Items.deepEqual]
      | node hu K =>
        simp only [itemEqual, Items.deepEqual, ih _ _ H K, areEqual_spec R ht hu, G _ _ _ _ (by simp) ht hu]
        cases Node.areEqual _ _ with
        | none => rfl
        | some b => cases b <;> rfl

theorem equalDepth_spec (R : Rep h f ns) (T : Tame f) (trimmed : Bool) : ∀ (d n m : Nat) (t u : Node), Depth f d n →
    IsTree f x n t → IsTree f x m u → equalDepth x h trimmed d n m = t.deepEqual trimmed u
  | 0, _, _, _, _, hd, _, _ => hd.elim
  | d + 1, n, m, _, _, hd, .mk (items := i) hn H, .mk (items := j) hm K => by
    obtain ⟨hdr, h1⟩ := R.nodes n hn
    obtain ⟨hdr2, h2⟩ := R.nodes m hm
    have e := equalLoop_spec R (trimmed := trimmed) (equal := equalDepth x h trimmed d) (ns n) (ns m) h.nextItem none none i j
      (R.length_le hn) (R.seg n hn) (R.seg m hm) (by rw [← R.kids_eq hn]; exact H) (by rw [← R.kids_eq hm]; exact K)
      (fun c t c2 u hc ht hu => equalDepth_spec R T trimmed d c c2 t u (hd c ⟨hn, by rw [R.kids_eq hn]; exact hc⟩) ht hu)
    simp only [equalDepth, areEqual_spec R (.mk hn H) (.mk hm K), Node.deepEqual]
    cases Node.areEqual _ _ with
    | none => rfl
    | some b =>
      cases b with
      | false => rfl
      | true => simp only [R.getChildNum hn, R.getChildNum hm, h1, h2, Option.bind_eq_bind, Option.bind_some, e, items_childNum H, items_childNum K]

/-- The size, the dump and the comparison of nodes in memory. -/
theorem Inv.dumpNode (I : Inv h f) {n : Nat} {t : Node} (ht : IsTree f x n t) (pretty : Bool) (level tabular : Int) :
    Heap.dumpNode x h n pretty level tabular = Dump.dumpNode t pretty level tabular := by
  obtain ⟨⟨ns, R⟩, T⟩ := I
  have hd : Depth f h.nextNode n := by
    cases ht with
    | mk hn _ => rw [R.next]; exact depth_next T hn
  simp only [Heap.dumpNode, Dump.dumpNode, sizeDepth_spec R T pretty tabular _ n level t hd ht,
    fun o => dumpDepth_spec R T pretty tabular _ n level o t hd ht]

theorem Inv.dumpDoc (I : Inv h f) {n : Nat} {t : Node} (ht : IsTree f x n t) (encoding : Option (List Char)) (standalone pretty : Bool)
    (tabular : Int) :
    Heap.dumpDoc x h n encoding standalone pretty tabular = Dump.dumpDoc ⟨encoding, standalone, t, [], []⟩ pretty tabular := by
  obtain ⟨⟨ns, R⟩, T⟩ := I
  have hd : Depth f h.nextNode n := by
    cases ht with
    | mk hn _ => rw [R.next]; exact depth_next T hn
  simp only [Heap.dumpDoc, Dump.dumpDoc, sizeDepth_spec R T pretty tabular _ n 0 t hd ht,
    fun o => dumpDepth_spec R T pretty tabular _ n 0 o t hd ht, docSizeOf, docSize, List.isEmpty_nil, if_true]
  cases nodeSize pretty tabular 0 t <;> rfl

theorem Inv.docEqual (I : Inv h f) {n m : Nat} {t u : Node} (ht : IsTree f x n t) (hu : IsTree f x m u) (trimmed : Bool) :
    Heap.docEqual x h n m trimmed = t.deepEqual trimmed u := by
  obtain ⟨⟨ns, R⟩, T⟩ := I
  have hd : Depth f h.nextNode n := by
    cases ht with
    | mk hn _ => rw [R.next]; exact depth_next T hn
  exact equalDepth_spec R T trimmed _ n m t u hd ht hu

theorem Inv.tree (I : Inv h f) (x : Extra) {n : Nat} (hn : f.live n = true) : ∃ t, IsTree f x n t := by
  obtain ⟨_, T⟩ := I
  exact isTree_depth T x _ n (depth_next T hn) hn

end Axl.Heap
