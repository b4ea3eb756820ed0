/-
The calls of the parser build the tree that it reads.
-/
import Verif.Model.Load
import Verif.Proofs.TreeDump
import Verif.Proofs.TreeMove
import Verif.Proofs.IterateLoop
import Verif.Spec.Load

namespace Axl.Load
open Spec.Tree Spec.Tree.Forest Spec.Load

theorem fits_append : ∀ (a b : List Op) (f : Forest), f.Fits (a ++ b) = (f.Fits a && (f.run a).Fits b)
  | [], b, f => by simp [Forest.Fits, Forest.run]
  | op :: a, b, f => by simp only [List.cons_append, Forest.Fits, Forest.run, fits_append a b, Bool.and_assoc]

theorem piOf_piText (p : PI) : piOf (piText p) = p := by
  obtain ⟨n, c⟩ := p
  have h1 : ∀ (k : Nat) (r : List Char), (List.replicate k 'x' ++ 'y' :: r).takeWhile (· = 'x') = List.replicate k 'x' := by
    intro k r
    induction k with
    | zero => simp
    | succ k ih => simp only [List.replicate_succ, List.cons_append, List.takeWhile_cons]; simp [ih]
  have h2 : ∀ (k : Nat) (r : List Char), (List.replicate k 'x' ++ 'y' :: r).dropWhile (· = 'x') = 'y' :: r := by
    intro k r
    induction k with
    | zero => simp
    | succ k ih => simp only [List.replicate_succ, List.cons_append, List.dropWhile_cons]; simp [ih]
  simp only [piText, piOf, List.append_assoc, List.cons_append, h1, h2, List.length_replicate, List.drop_succ_cons, List.drop_zero]
  cases c <;> simp

theorem leaf_child {x : Extra} (hx : x.pi = piOf) {l : Leaf} (hl : NoRef l) : ∃ k s, child l = .text k s ∧ x.leaf k s = l := by
  cases l with
  | content s => exact ⟨_, _, rfl, rfl⟩
  | cdata s => exact ⟨_, _, rfl, rfl⟩
  | comment s => exact ⟨_, _, rfl, rfl⟩
  | pi p => exact ⟨_, _, rfl, by rw [Extra.leaf, hx, piOf_piText]⟩
  | ref s => exact hl.elim

/-- Two collections agree on the nodes of a range. -/
def Agree (f g : Forest) (i j : Nat) : Prop := ∀ m, i ≤ m → m < j → g.live m = f.live m ∧ g.name m = f.name m ∧ g.kids m = f.kids m

theorem Agree.trans {f g h : Forest} {i j : Nat} (a : Agree f g i j) (b : Agree g h i j) : Agree f h i j := fun m h1 h2 => by
  obtain ⟨a1, a2, a3⟩ := a m h1 h2
  obtain ⟨b1, b2, b3⟩ := b m h1 h2
  exact ⟨b1.trans a1, b2.trans a2, b3.trans a3⟩

theorem Agree.sub {f g : Forest} {i j i' j' : Nat} (a : Agree f g i j) (h1 : i ≤ i') (h2 : j' ≤ j) : Agree f g i' j' :=
  fun m h3 h4 => a m (Nat.le_trans h1 h3) (Nat.lt_of_lt_of_le h4 h2)

/-- What the calls for items do: the node `p` gets children that stand for them, new nodes are made and nothing else changes. -/
structure Adds (x : Extra) (f g : Forest) (p : Nat) (is : Items) : Prop where
  next : g.next = f.next + is.count
  old : ∀ m, m < f.next → m ≠ p → g.live m = f.live m ∧ g.name m = f.name m ∧ g.kids m = f.kids m
  live : g.live p = true
  name : g.name p = f.name p
  kids : ∃ cs, g.kids p = f.kids p ++ cs ∧ ∀ g', Agree g g' f.next g.next → IsItems g' x cs is

structure Puts (x : Extra) (f g : Forest) (p : Nat) (n : Node) : Prop where
  next : g.next = f.next + n.count
  old : ∀ m, m < f.next → m ≠ p → g.live m = f.live m ∧ g.name m = f.name m ∧ g.kids m = f.kids m
  live : g.live p = true
  name : g.name p = f.name p
  kids : g.kids p = f.kids p ++ [.node f.next]
  tree : ∀ g', Agree g g' f.next g.next → IsTree g' x f.next n

/-- The attributes from a number on are those of the tree. -/
def Has (x : Extra) (k c : Nat) (a : Nat → Attrs) : Prop := x.pi = piOf ∧ ∀ i, i < c → x.attrs (k + i) = a i

theorem subtree_leaf {f : Forest} {k d : Nat} (h : f.kids k = []) : f.subtree (d + 1) k = [k] := by
  simp [subtree, h, nodesOf]

theorem inv_next {h h' : Heap} {f g : Forest} {ops : List Op} (I : Heap.Inv h f) (hf : f.Fits ops = true) (e : f.run ops = g)
    (hr : h.run ops = some h') : Heap.Inv h' g := by
  obtain ⟨h2, e2, I2⟩ := Heap.inv_run ops I hf
  rw [hr] at e2
  cases e2
  rw [← e]
  exact I2

mutual
theorem node_spec {x : Extra} : ∀ (n : Node) (h : Heap) (f : Forest) (p : Nat), NoRefs n → Heap.Inv h f → f.live p = true →
    Has x f.next n.count (attrs n) →
    f.Fits (node f.next (some p) n) = true ∧ Puts x f (f.run (node f.next (some p) n)) p n
  | .mk name a is, h, f, p, hr, I, hp, hx => by
    have T := I.2
    have hpk : p < f.next := T.bound p hp
    have hne : p ≠ f.next := by omega
    have hf1 : f.Fits [.create name] = true := rfl
    obtain ⟨h1, e1, I1⟩ := Heap.inv_run [.create name] I hf1
    have T1 := I1.2
    have hr1 : f.run [.create name] = f.add name := rfl
    rw [hr1] at I1 T1
    have hk0 : (f.add name).kids f.next = [] := by simp [add]
    have hlive : (f.add name).live p = true := by simp [add, hne, hp]
    have hmay : (f.add name).mayGo p (.node f.next) = true := by
      simp only [mayGo, Bool.and_eq_true, Bool.not_eq_true']
      refine ⟨⟨by simp [add], ?_⟩, ?_⟩
      · rw [Bool.eq_false_iff]
        intro ha
        obtain ⟨q, hq1, hq2⟩ := (attached_iff T1).mp ha
        by_cases hqk : q = f.next
        · subst hqk; rw [hk0] at hq2; simp at hq2
        · simp only [add, hqk, if_false] at hq1 hq2
          have := T.bound _ (T.closed q f.next ⟨hq1, hq2⟩)
          omega
      · show (f.add name).below f.next p = false
        simp only [below, add, subtree, nodesOf, if_true, List.flatMap_nil]
        simp [hne]
    have hfit2 : (f.add name).Fits [.setChild p (.node f.next)] = true := by
      simp [Forest.Fits, fits, hlive, hmay]
    obtain ⟨h2, e2, I2⟩ := Heap.inv_run [.setChild p (.node f.next)] I1 hfit2
    generalize hf2 : (f.add name).run [.setChild p (.node f.next)] = f2 at I2
    have hf2' : f2 = (f.add name).setKids p ((f.add name).kids p ++ [.node f.next]) := hf2.symm
    have hn2 : f2.next = f.next + 1 := by rw [hf2']; rfl
    have hkk : f2.kids f.next = [] := by rw [hf2']; simp [setKids, hk0, Ne.symm hne]
    have hlk : f2.live f.next = true := by rw [hf2']; simp [setKids, add]
    simp only [NoRefs] at hr
    obtain ⟨F, A⟩ := items_spec (x := x) is h2 f2 f.next hr I2 hlk (by
      refine ⟨hx.1, fun i hi => ?_⟩
      have := hx.2 (i + 1) (by simp [Node.count]; omega)
      rw [hn2, Nat.add_assoc, Nat.add_comm 1 i, this]
      rfl)
    rw [hn2] at F A
    have hrun : f.run (node f.next (some p) (.mk name a is)) = f2.run (items f.next (f.next + 1) is) := by
      simp only [node, place, List.cons_append, List.nil_append, Forest.run]
      rw [hf2']; rfl
    refine ⟨?_, ?_⟩
    · simp only [node, place, List.cons_append, List.nil_append, Forest.Fits, Bool.and_eq_true]
      refine ⟨rfl, ?_, ?_⟩
      · simp only [Forest.Fits, Bool.and_true] at hfit2
        exact hfit2
      · rw [hf2'] at F; exact F
    · rw [hrun]
      generalize f2.run (items f.next (f.next + 1) is) = g at A
      obtain ⟨cs, hcs, htree⟩ := A.kids
      have hold : ∀ m, m < f.next → m ≠ p → f2.live m = f.live m ∧ f2.name m = f.name m ∧ f2.kids m = f.kids m := by
        intro m h1 h2
        have : m ≠ f.next := by omega
        rw [hf2']
        simp [setKids, add, this, h2]
      have hpA := A.old p (by omega) hne
      refine ⟨by rw [A.next, hn2]; simp [Node.count]; omega, ?_, ?_, ?_, ?_, ?_⟩
      · intro m h1 h2
        obtain ⟨a1, a2, a3⟩ := A.old m (by omega) (by omega)
        obtain ⟨b1, b2, b3⟩ := hold m h1 h2
        exact ⟨a1.trans b1, a2.trans b2, a3.trans b3⟩
      · rw [hpA.1, hf2']; exact hlive
      · rw [hpA.2.1, hf2']; simp [setKids, add, hne]
      · rw [hpA.2.2, hf2']; simp [setKids, add, hne]
      · intro g' ag
        obtain ⟨c1, c2, c3⟩ := ag f.next (Nat.le_refl _) (by rw [A.next]; omega)
        have hi : IsItems g' x cs is := htree g' (ag.sub (by omega) (Nat.le_refl _))
        have := IsTree.mk (f := g') (x := x) (n := f.next) (items := is) (by rw [c1]; exact A.live)
          (by rw [c3, hcs, hkk]; exact hi)
        have e3 : g'.name f.next = name := by rw [c2, A.name, hf2']; simp [setKids, add]
        have e4 : x.attrs f.next = a := by
          have := hx.2 0 (by simp [Node.count]; omega)
          simpa [attrs] using this
        rw [e3, e4] at this
        exact this
theorem items_spec {x : Extra} : ∀ (is : Items) (h : Heap) (f : Forest) (p : Nat), NoRefsIn is → Heap.Inv h f → f.live p = true →
    Has x f.next is.count (attrsIn is) →
    f.Fits (items p f.next is) = true ∧ Adds x f (f.run (items p f.next is)) p is
  | .nil, h, f, p, hr, I, hp, hx => by
    refine ⟨rfl, ⟨by simp [items, Forest.run, Items.count], fun _ _ _ => ⟨rfl, rfl, rfl⟩, hp, rfl, [], by simp [items, Forest.run], fun _ _ => .nil⟩⟩
  | .leaf l next, h, f, p, hr, I, hp, hx => by
    simp only [NoRefsIn] at hr
    obtain ⟨k, s, hc, hl⟩ := leaf_child hx.1 hr.1
    have hfit : f.Fits [.setChild p (.text k s)] = true := by simp [Forest.Fits, fits, hp, mayGo]
    obtain ⟨h1, e1, I1⟩ := Heap.inv_run [.setChild p (.text k s)] I hfit
    have I2 : Heap.Inv h1 (f.setKids p (f.kids p ++ [.text k s])) := I1
    obtain ⟨F, A⟩ := items_spec (x := x) next h1 (f.setKids p (f.kids p ++ [.text k s])) p hr.2 I2 hp hx
    have hrun : f.run (items p f.next (.leaf l next)) = (f.setKids p (f.kids p ++ [.text k s])).run (items p f.next next) := by
      simp only [items, Forest.run, hc]; rfl
    refine ⟨?_, ?_⟩
    · simp only [items, Forest.Fits, hc, Bool.and_eq_true]
      simp only [Forest.Fits, Bool.and_true] at hfit
      exact ⟨hfit, F⟩
    · rw [hrun]
      obtain ⟨cs, hcs, htree⟩ := A.kids
      refine ⟨A.next, ?_, A.live, A.name, .text k s :: cs, ?_, ?_⟩
      · intro m h1 h2
        obtain ⟨a1, a2, a3⟩ := A.old m h1 h2
        exact ⟨a1, a2, a3.trans (by simp [setKids, h2])⟩
      · refine hcs.trans ?_
        simp [setKids]
      · intro g' ag
        have := IsItems.text (k := k) (s := s) (htree g' ag)
        rw [hl] at this
        exact this
  | .node n next, h, f, p, hr, I, hp, hx => by
    simp only [NoRefsIn] at hr
    have hx1 : Has x f.next n.count (attrs n) := ⟨hx.1, fun i hi => by
      have := hx.2 i (by simp [Items.count]; omega)
      rw [this, attrsIn, if_pos hi]⟩
    obtain ⟨F1, P⟩ := node_spec (x := x) n h f p hr.1 I hp hx1
    obtain ⟨h1, e1, I1⟩ := Heap.inv_run _ I F1
    generalize hg1 : f.run (node f.next (some p) n) = g1 at P I1
    obtain ⟨F2, A⟩ := items_spec (x := x) next h1 g1 p hr.2 I1 P.live (by
      refine ⟨hx.1, fun i hi => ?_⟩
      have := hx.2 (n.count + i) (by simp [Items.count]; omega)
      rw [P.next, Nat.add_assoc, this, attrsIn, if_neg (by omega), Nat.add_sub_cancel_left])
    rw [P.next] at F2 A
    have hrun : f.run (items p f.next (.node n next)) = g1.run (items p (f.next + n.count) next) := by
      simp only [items, Heap.forest_run_append, hg1]
    refine ⟨?_, ?_⟩
    · simp only [items, fits_append, Bool.and_eq_true, hg1]
      exact ⟨F1, F2⟩
    · rw [hrun]
      generalize g1.run (items p (f.next + n.count) next) = g at A
      obtain ⟨cs, hcs, htree⟩ := A.kids
      have hpn : p < f.next := I.2.bound p hp
      refine ⟨by rw [A.next, P.next]; simp [Items.count]; omega, ?_, A.live, by rw [A.name, P.name], .node f.next :: cs, ?_, ?_⟩
      · intro m h1 h2
        obtain ⟨a1, a2, a3⟩ := A.old m (by rw [P.next]; omega) h2
        obtain ⟨b1, b2, b3⟩ := P.old m h1 h2
        exact ⟨a1.trans b1, a2.trans b2, a3.trans b3⟩
      · rw [hcs, P.kids]; simp
      · intro g' ag
        refine .node (P.tree g' ?_) (htree g' (ag.sub (by rw [P.next]; omega) (Nat.le_refl _)))
        intro m h1 h2
        obtain ⟨a1, a2, a3⟩ := ag m h1 (by rw [A.next]; omega)
        obtain ⟨b1, b2, b3⟩ := A.old m h2 (by omega)
        exact ⟨a1.trans b1, a2.trans b2, a3.trans b3⟩
end

/-- The calls for a document, from nothing. -/
theorem root_spec (d : Doc) (hr : NoRefs d.root) :
    Forest.empty.Fits (root d) = true ∧ IsTree (Forest.empty.run (root d)) (extra d) 0 d.root ∧
      (Forest.empty.run (root d)).next = d.root.count := by
  obtain ⟨enc, alone, n, pis, nv⟩ := d
  obtain ⟨name, a, is⟩ := n
  simp only [NoRefs] at hr
  have hf1 : Forest.empty.Fits [.create name] = true := rfl
  obtain ⟨h1, e1, I1⟩ := Heap.inv_run [.create name] Heap.inv_empty hf1
  have hn : (Forest.empty.run [.create name]).next = 1 := rfl
  obtain ⟨F, A⟩ := items_spec (x := extra ⟨enc, alone, .mk name a is, pis, nv⟩) is h1 (Forest.empty.run [.create name]) 0 hr I1 rfl
    ⟨rfl, fun i hi => by rw [hn, Nat.add_comm]; rfl⟩
  rw [hn] at F A
  obtain ⟨cs, hcs, htree⟩ := A.kids
  refine ⟨F, ?_, ?_⟩
  · have hi := htree _ (fun _ _ _ => ⟨rfl, rfl, rfl⟩)
    have := IsTree.mk (n := 0) A.live (by rw [hcs]; exact hi)
    rw [A.name] at this
    exact this
  · exact A.next.trans (by rw [hn]; simp [Node.count])

end Axl.Load
