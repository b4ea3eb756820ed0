/-
A call uses only the cells that it needs.
-/
import Verif.Spec.Footprint
import Verif.Proofs.TreeMove

namespace Axl.Heap
open Spec.Tree

variable {h : Heap} {r : Cells}

theorem Apart.node (_ : Apart h r) {n : Nat} {c : NodeC} (e : h.nodes n = some c) : (h.plus r).nodes n = some c := by
  simp [plus, e]

theorem Apart.item (_ : Apart h r) {a : Nat} {c : Cell Info} (e : h.items a = some c) : (h.plus r).items a = some c := by
  simp [plus, e]

/-- When the first gives a memory, the second gives it with the other cells. -/
def Fr (r : Cells) (x X : Option Heap) : Prop := ∀ h', x = some h' → X = some (h'.plus r) ∧ Apart h' r

def FrP {α : Type} (r : Cells) (x X : Option (Heap × α)) : Prop := ∀ h' a, x = some (h', a) → X = some (h'.plus r, a) ∧ Apart h' r

theorem Fr.none {X : Option Heap} : Fr r none X := fun _ e => nomatch e
theorem FrP.none {α : Type} {X : Option (Heap × α)} : FrP r none X := fun _ _ e => nomatch e
theorem Fr.some (A : Apart h r) : Fr r (some h) (some (h.plus r)) := by
  intro h' e
  cases e
  exact ⟨rfl, A⟩
theorem FrP.some {α : Type} {a : α} (A : Apart h r) : FrP r (some (h, a)) (some (h.plus r, a)) := by
  intro h' a e
  cases e
  exact ⟨rfl, A⟩

theorem Fr.bind {x X : Option Heap} {f g : Heap → Option Heap} (hx : Fr r x X) (hf : ∀ h, Apart h r → Fr r (f h) (g (h.plus r))) : Fr r (x.bind f) (X.bind g) := by
  intro h' e
  obtain ⟨h1, e1, e2⟩ := Option.bind_eq_some_iff.1 e
  obtain ⟨e3, A⟩ := hx h1 e1
  rw [e3]
  exact hf h1 A h' e2

theorem FrP.bind {α : Type} {x X : Option (Heap × α)} {f g : Heap × α → Option Heap} (hx : FrP r x X)
    (hf : ∀ h a, Apart h r → Fr r (f (h, a)) (g (h.plus r, a))) : Fr r (x.bind f) (X.bind g) := by
  intro h' e
  obtain ⟨⟨h1, a⟩, e1, e2⟩ := Option.bind_eq_some_iff.1 e
  obtain ⟨e3, A⟩ := hx h1 a e1
  rw [e3]
  exact hf h1 a A h' e2

theorem Fr.bindP {α : Type} {x X : Option Heap} {f g : Heap → Option (Heap × α)} (hx : Fr r x X) (hf : ∀ h, Apart h r → FrP r (f h) (g (h.plus r))) :
    FrP r (x.bind f) (X.bind g) := by
  intro h' a e
  obtain ⟨h1, e1, e2⟩ := Option.bind_eq_some_iff.1 e
  obtain ⟨e3, A⟩ := hx h1 e1
  rw [e3]
  exact hf h1 A h' a e2

theorem Fr.map {α : Type} {x X : Option Heap} (a : α) (hx : Fr r x X) : FrP r (x.map fun h => (h, a)) (X.map fun h => (h, a)) := by
  intro h' b e
  obtain ⟨h1, e1, e2⟩ := Option.map_eq_some_iff.1 e
  cases e2
  obtain ⟨e3, A⟩ := hx _ e1
  rw [e3]
  exact ⟨rfl, A⟩

theorem FrP.fst {α : Type} {x X : Option (Heap × α)} (hx : FrP r x X) : Fr r (x.map Prod.fst) (X.map Prod.fst) := by
  intro h' e
  obtain ⟨⟨h1, a⟩, e1, e2⟩ := Option.map_eq_some_iff.1 e
  cases e2
  obtain ⟨e3, A⟩ := hx _ _ e1
  rw [e3]
  exact ⟨rfl, A⟩

theorem Fr.node (A : Apart h r) {n : Nat} {f g : NodeC → Option Heap} (hf : ∀ c, h.nodes n = Option.some c → Fr r (f c) (g c)) :
    Fr r ((h.nodes n).bind f) (((h.plus r).nodes n).bind g) := by
  cases e : h.nodes n with
  | none => exact Fr.none
  | some c => rw [A.node e]; exact hf c e

theorem Fr.item (A : Apart h r) {a : Nat} {f g : Cell Info → Option Heap} (hf : ∀ c, h.items a = Option.some c → Fr r (f c) (g c)) :
    Fr r ((h.items a).bind f) (((h.plus r).items a).bind g) := by
  cases e : h.items a with
  | none => exact Fr.none
  | some c => rw [A.item e]; exact hf c e

/-! ## Reading and writing a field -/

theorem fr_putNode (A : Apart h r) {n : Nat} {c : NodeC} (e : h.nodes n = some c) (c' : NodeC) :
    (h.plus r).putNode n c' = (h.putNode n c').plus r ∧ Apart (h.putNode n c') r := by
  constructor
  · simp only [putNode, plus, Heap.mk.injEq, and_true]
    funext m
    by_cases h : m = n <;> simp [h]
  · refine ⟨?_, A.items⟩
    intro m d hm
    obtain ⟨h1, h2⟩ := A.nodes m d hm
    refine ⟨?_, h2⟩
    simp only [putNode]
    rw [if_neg]
    · exact h1
    · rintro rfl
      rw [e] at h1
      cases h1

theorem fr_put (A : Apart h r) {a : Nat} {c : Cell Info} (e : h.items a = some c) (c' : Cell Info) :
    ({ h.plus r with items := (h.plus r).items.put a c' } : Heap) = ({ h with items := h.items.put a c' } : Heap).plus r ∧ Apart { h with items := h.items.put a c' } r := by
  constructor
  · simp only [plus, Heap.mk.injEq, and_true, true_and]
    funext m
    simp only [Mem.put]
    by_cases h : m = a <;> simp [h]
  · refine ⟨A.nodes, ?_⟩
    intro m d hm
    obtain ⟨h1, h2⟩ := A.items m d hm
    refine ⟨?_, h2⟩
    simp only [Mem.put]
    rw [if_neg]
    · exact h1
    · rintro rfl
      rw [e] at h1
      cases h1

theorem fr_setFirst (A : Apart h r) (n : Nat) (v : Option Nat) : Fr r (h.setFirst n v) ((h.plus r).setFirst n v) := by
  unfold setFirst
  cases e : h.nodes n with
  | none => exact Fr.none
  | some c =>
    rw [A.node e]
    simp only
    rw [(fr_putNode A e _).1]
    exact Fr.some (fr_putNode A e _).2

theorem fr_setLast (A : Apart h r) (n : Nat) (v : Option Nat) : Fr r (h.setLast n v) ((h.plus r).setLast n v) := by
  unfold setLast
  cases e : h.nodes n with
  | none => exact Fr.none
  | some c =>
    rw [A.node e]
    simp only
    rw [(fr_putNode A e _).1]
    exact Fr.some (fr_putNode A e _).2

theorem fr_setHolder (A : Apart h r) (n : Nat) (v : Option Nat) : Fr r (h.setHolder n v) ((h.plus r).setHolder n v) := by
  unfold setHolder
  cases e : h.nodes n with
  | none => exact Fr.none
  | some c =>
    rw [A.node e]
    simp only
    rw [(fr_putNode A e _).1]
    exact Fr.some (fr_putNode A e _).2

theorem fr_setNext (A : Apart h r) (a : Nat) (v : Option Nat) : Fr r (h.setNext a v) ((h.plus r).setNext a v) := by
  unfold setNext Mem.setNext
  cases e : h.items a with
  | none => exact Fr.none
  | some c =>
    rw [A.item e]
    simp only
    rw [(fr_put A e _).1]
    exact Fr.some (fr_put A e _).2

theorem fr_setPrev (A : Apart h r) (a : Nat) (v : Option Nat) : Fr r (h.setPrev a v) ((h.plus r).setPrev a v) := by
  unfold setPrev Mem.setPrev
  cases e : h.items a with
  | none => exact Fr.none
  | some c =>
    rw [A.item e]
    simp only
    rw [(fr_put A e _).1]
    exact Fr.some (fr_put A e _).2

theorem fr_setParent (A : Apart h r) (a : Nat) (v : Option Nat) : Fr r (h.setParent a v) ((h.plus r).setParent a v) := by
  unfold setParent
  cases e : h.items a with
  | none => exact Fr.none
  | some c =>
    rw [A.item e]
    simp only
    rw [(fr_put A e _).1]
    exact Fr.some (fr_put A e _).2

theorem fr_setData (A : Apart h r) (a : Nat) (v : Child) : Fr r (h.setData a v) ((h.plus r).setData a v) := by
  unfold setData
  cases e : h.items a with
  | none => exact Fr.none
  | some c =>
    rw [A.item e]
    simp only
    rw [(fr_put A e _).1]
    exact Fr.some (fr_put A e _).2

theorem fr_newItem (A : Apart h r) (v : Child) :
    (h.plus r).newItem v = ((h.newItem v).1.plus r, (h.newItem v).2) ∧ Apart (h.newItem v).1 r := by
  constructor
  · simp only [newItem, plus, Prod.mk.injEq, Heap.mk.injEq, and_true, true_and]
    funext m
    simp only [Mem.put]
    by_cases h : m = h.nextItem <;> simp [h]
  · refine ⟨A.nodes, ?_⟩
    intro m d hm
    obtain ⟨h1, h2⟩ := A.items m d hm
    simp only [newItem, Mem.put]
    refine ⟨?_, by omega⟩
    rw [if_neg (by omega)]
    exact h1

theorem fr_create (A : Apart h r) (name : List Char) :
    (h.plus r).create name = ((h.create name).1.plus r, (h.create name).2) ∧ Apart (h.create name).1 r := by
  constructor
  · simp only [create, plus, Prod.mk.injEq, Heap.mk.injEq, and_true]
    funext m
    by_cases h : m = h.nextNode <;> simp [h]
  · refine ⟨?_, A.items⟩
    intro m d hm
    obtain ⟨h1, h2⟩ := A.nodes m d hm
    simp only [create]
    refine ⟨?_, by omega⟩
    rw [if_neg (by omega)]
    exact h1

theorem fr_freeItem (A : Apart h r) (a : Nat) : Fr r (h.freeItem a) ((h.plus r).freeItem a) := by
  unfold freeItem Mem.free
  cases e : h.items a with
  | none => exact Fr.none
  | some c =>
    rw [A.item e]
    intro h' e'
    cases e'
    have hr : r.items a = none := by
      cases e1 : r.items a with
      | none => rfl
      | some d => rw [(A.items a d e1).1] at e; cases e
    refine ⟨?_, A.nodes, ?_⟩
    · simp only [plus, Option.some.injEq, Heap.mk.injEq, and_true, true_and]
      funext m
      by_cases h : m = a <;> simp [h, hr]
    · intro m d hm
      obtain ⟨h1, h2⟩ := A.items m d hm
      refine ⟨?_, h2⟩
      simp only
      split
      · rfl
      · exact h1

theorem fr_freeNodeRec (A : Apart h r) (n : Nat) : Fr r (h.freeNodeRec n) ((h.plus r).freeNodeRec n) := by
  unfold freeNodeRec
  cases e : h.nodes n with
  | none => exact Fr.none
  | some c =>
    rw [A.node e]
    intro h' e'
    cases e'
    have hr : r.nodes n = none := by
      cases e1 : r.nodes n with
      | none => rfl
      | some d => rw [(A.nodes n d e1).1] at e; cases e
    refine ⟨?_, ?_, A.items⟩
    · simp only [plus, Option.some.injEq, Heap.mk.injEq, and_true]
      funext m
      by_cases h : m = n <;> simp [h, hr]
    · intro m d hm
      obtain ⟨h1, h2⟩ := A.nodes m d hm
      refine ⟨?_, h2⟩
      simp only
      split
      · rfl
      · exact h1

/-! ## The functions -/

theorem fr_readDoc (A : Apart h r) {p : Nat} (e : h.readDoc p = some ()) : (h.plus r).readDoc p = some () := by
  unfold readDoc at e ⊢
  cases e1 : h.nodes p with
  | none => rw [e1] at e; cases e
  | some c =>
    rw [e1] at e
    rw [A.node e1]
    simp only at e ⊢
    split
    · rfl
    · rename_i a ha
      rw [ha] at e
      simp only at e
      cases e2 : h.items a with
      | none => rw [e2] at e; cases e
      | some d => rw [A.item e2]; rfl

theorem fr_commonConfigure (A : Apart h r) (p : Nat) (v : Child) : FrP r (h.commonConfigure p v) ((h.plus r).commonConfigure p v) := by
  unfold commonConfigure
  cases v with
  | text k s =>
    simp only
    cases e : h.readDoc p with
    | none => exact FrP.none
    | some u =>
      rw [fr_readDoc A e]
      simp only
      rw [(fr_newItem A _).1]
      exact FrP.some (fr_newItem A _).2
  | node n =>
    simp only
    cases e : h.nodes n with
    | none => exact FrP.none
    | some c =>
      rw [A.node e]
      simp only
      cases e' : h.readDoc p with
      | none => exact FrP.none
      | some u =>
        rw [fr_readDoc A e']
        simp only
        cases hc : c.holder with
        | some a =>
          simp only
          cases e2 : h.setData a (.node n) with
          | none => exact FrP.none
          | some h1 =>
            obtain ⟨e3, A1⟩ := fr_setData A a (.node n) h1 e2
            rw [e3]
            exact Fr.map a (fr_setHolder A1 n (some a))
        | none =>
          simp only
          obtain ⟨e3, A1⟩ := fr_newItem A (.node n)
          rw [e3]
          exact Fr.map _ (fr_setHolder A1 n _)

theorem fr_setChildRef (A : Apart h r) (p a : Nat) : Fr r (h.setChildRef p a) ((h.plus r).setChildRef p a) := by
  refine Fr.bind (fr_setParent A _ _) fun h A => ?_
  refine Fr.node A fun c _ => ?_
  cases c.first with
  | none => exact Fr.bind (fr_setFirst A _ _) fun h A => fr_setLast A _ _
  | some _ =>
    simp only
    cases c.last with
    | none => exact Fr.none
    | some l =>
      refine Fr.bind (fr_setNext A _ _) fun h A => ?_
      refine Fr.bind (fr_setPrev A _ _) fun h A => ?_
      exact Fr.bind (fr_setNext A _ _) fun h A => fr_setLast A _ _

theorem fr_setChild (A : Apart h r) (p : Nat) (v : Child) : Fr r (h.setChild p v) ((h.plus r).setChild p v) :=
  FrP.bind (fr_commonConfigure A p v) fun _ a A => fr_setChildRef A p a

theorem fr_insertItem (A : Apart h r) (a p b : Nat) : Fr r (h.insertItem a p b) ((h.plus r).insertItem a p b) := by
  refine Fr.item A fun c _ => ?_
  refine Fr.bind (fr_setParent A _ _) fun h A => ?_
  refine Fr.bind (fr_setPrev A _ _) fun h A => ?_
  refine Fr.bind (fr_setNext A _ _) fun h A => ?_
  refine Fr.bind ?_ fun h A => fr_setNext A _ _
  unfold linkAfter
  cases c.next with
  | none => exact fr_setLast A _ _
  | some b => exact fr_setPrev A _ _

theorem fr_setAfter (A : Apart h r) (a : Nat) (v : Child) : Fr r (h.setAfter a v) ((h.plus r).setAfter a v) := by
  refine Fr.item A fun c _ => ?_
  cases c.data.parent with
  | none => exact Fr.none
  | some p => exact FrP.bind (fr_commonConfigure A p v) fun _ b A => fr_insertItem A a p b

theorem fr_newRef (A : Apart h r) (v : Child) : FrP r (h.newRef v) ((h.plus r).newRef v) := by
  unfold newRef
  obtain ⟨e3, A1⟩ := fr_newItem A v
  cases v with
  | text k s =>
    simp only
    rw [e3]
    exact FrP.some A1
  | node n =>
    simp only
    rw [e3]
    exact Fr.map _ (fr_setHolder A1 n _)

theorem fr_itemFreeWith {free : Heap → Nat → Option Heap} (hf : ∀ h n, Apart h r → Fr r (free h n) (free (h.plus r) n)) (A : Apart h r) (a : Nat) :
    Fr r (itemFreeWith free h a) (itemFreeWith free (h.plus r) a) := by
  unfold itemFreeWith
  cases e : h.items a with
  | none => exact Fr.none
  | some c =>
    rw [A.item e]
    simp only
    cases c.data.data with
    | node n => exact hf h n A
    | text k s => exact fr_freeItem A a

theorem fr_freeLoop {free : Heap → Nat → Option Heap} (hf : ∀ h n, Apart h r → Fr r (free h n) (free (h.plus r) n)) :
    ∀ (k : Nat) (h : Heap) (o : Option Nat), Apart h r → Fr r (freeLoop free k h o) (freeLoop free k (h.plus r) o)
  | k, h, none, A => by unfold freeLoop; cases k <;> exact Fr.some A
  | 0, _, some _, _ => Fr.none
  | k + 1, h, some a, A => by
    unfold freeLoop
    cases e : h.items a with
    | none => exact Fr.none
    | some c =>
      rw [A.item e]
      simp only
      cases e1 : itemFreeWith free h a with
      | none => exact Fr.none
      | some h1 =>
        obtain ⟨e2, A1⟩ := fr_itemFreeWith hf A a h1 e1
        rw [e2]
        exact fr_freeLoop hf k h1 c.next A1

theorem fr_nodeFreeDepth : ∀ (d : Nat) (h : Heap) (n : Nat), Apart h r → Fr r (nodeFreeDepth d h n) (nodeFreeDepth d (h.plus r) n)
  | 0, _, _, _ => Fr.none
  | d + 1, h, n, A => by
    unfold nodeFreeDepth
    cases e : h.nodes n with
    | none => exact Fr.none
    | some c =>
      rw [A.node e]
      simp only
      cases e1 : freeLoop (nodeFreeDepth d) h.nextItem h c.first with
      | none => exact Fr.none
      | some h1 =>
        obtain ⟨e2, A1⟩ := fr_freeLoop (fun h n A => fr_nodeFreeDepth d h n A) h.nextItem h c.first A h1 e1
        have e2' : freeLoop (nodeFreeDepth d) (h.plus r).nextItem (h.plus r) c.first = some (h1.plus r) := e2
        rw [e2']
        simp only
        unfold freeHolder
        cases c.holder with
        | none => exact fr_freeNodeRec A1 n
        | some a =>
          simp only
          cases e3 : h1.freeItem a with
          | none => exact Fr.none
          | some h2 =>
            obtain ⟨e4, A2⟩ := fr_freeItem A1 a h2 e3
            rw [e4]
            exact fr_freeNodeRec A2 n

theorem fr_nodeFree (A : Apart h r) (n : Nat) : Fr r (h.nodeFree n) ((h.plus r).nodeFree n) := fr_nodeFreeDepth _ h n A

theorem fr_itemFree (A : Apart h r) (a : Nat) : Fr r (h.itemFree a) ((h.plus r).itemFree a) :=
  fr_itemFreeWith (fun _ n A => fr_nodeFree A n) A a

theorem fr_setNextIf (A : Apart h r) (b v : Option Nat) : Fr r (h.setNextIf b v) ((h.plus r).setNextIf b v) := by
  cases b with
  | none => exact Fr.some A
  | some b => exact fr_setNext A _ _

theorem fr_setPrevIf (A : Apart h r) (b v : Option Nat) : Fr r (h.setPrevIf b v) ((h.plus r).setPrevIf b v) := by
  cases b with
  | none => exact Fr.some A
  | some b => exact fr_setPrev A _ _

theorem fr_setFirstIf (A : Apart h r) (b : Option Nat) (p : Nat) (v : Option Nat) : Fr r (h.setFirstIf b p v) ((h.plus r).setFirstIf b p v) := by
  cases b with
  | none => exact fr_setFirst A _ _
  | some b => exact Fr.some A

theorem fr_setLastIf (A : Apart h r) (b : Option Nat) (p : Nat) (v : Option Nat) : Fr r (h.setLastIf b p v) ((h.plus r).setLastIf b p v) := by
  cases b with
  | none => exact fr_setLast A _ _
  | some b => exact Fr.some A

theorem fr_unlink (A : Apart h r) (a p : Nat) : Fr r (h.unlink a p) ((h.plus r).unlink a p) := by
  refine Fr.item A fun c _ => ?_
  refine Fr.bind (fr_setNextIf A _ _) fun h A => ?_
  refine Fr.bind (fr_setPrevIf A _ _) fun h A => ?_
  refine Fr.bind (fr_setFirstIf A _ _ _) fun h A => ?_
  refine Fr.bind (fr_setLastIf A _ _ _) fun h A => ?_
  exact Fr.bind (fr_setPrev A _ _) fun h A => fr_setNext A _ _

theorem fr_nodeDeattach (A : Apart h r) (n : Nat) : Fr r (h.nodeDeattach n) ((h.plus r).nodeDeattach n) := by
  unfold nodeDeattach
  cases e : h.nodes n with
  | none => exact Fr.none
  | some c =>
    rw [A.node e]
    simp only
    cases c.holder with
    | none => exact Fr.some A
    | some a =>
      simp only
      cases e1 : h.items a with
      | none => exact Fr.none
      | some ci =>
        rw [A.item e1]
        simp only
        cases ci.data.parent with
        | none => exact Fr.some A
        | some p => exact fr_unlink A a p

theorem fr_nodeRemove (A : Apart h r) (n : Nat) (d : Bool) : Fr r (h.nodeRemove n d) ((h.plus r).nodeRemove n d) := by
  unfold nodeRemove
  cases e : h.nodeDeattach n with
  | none => exact Fr.none
  | some h1 =>
    obtain ⟨e1, A1⟩ := fr_nodeDeattach A n h1 e
    rw [e1]
    simp only
    split
    · exact fr_nodeFree A1 n
    · exact Fr.some A1

theorem fr_removeEnds (A : Apart h r) (c : Cell Info) : Fr r (h.removeEnds c) ((h.plus r).removeEnds c) := by
  unfold removeEnds
  cases c.data.data with
  | text k s => exact Fr.some A
  | node n =>
    simp only
    split
    · exact Fr.some A
    · split
      · exact Fr.none
      · rename_i p _
        cases e : h.setFirstIf c.prev p c.next with
        | none => exact Fr.none
        | some h1 =>
          obtain ⟨e1, A1⟩ := fr_setFirstIf A c.prev p c.next h1 e
          rw [e1]
          exact fr_setLastIf A1 _ _ _

theorem fr_itemRemove (A : Apart h r) (a : Nat) (d : Bool) : Fr r (h.itemRemove a d) ((h.plus r).itemRemove a d) := by
  have hu : Fr r (h.itemUnlink a) ((h.plus r).itemUnlink a) := by
    refine Fr.item A fun c _ => ?_
    refine Fr.bind (fr_setNextIf A _ _) fun h A => ?_
    refine Fr.bind (fr_setPrevIf A _ _) fun h A => ?_
    refine Fr.bind (fr_removeEnds A _) fun h A => ?_
    exact Fr.bind (fr_setNext A _ _) fun h A => fr_setPrev A _ _
  unfold itemRemove
  cases e : h.itemUnlink a with
  | none => exact Fr.none
  | some h1 =>
    obtain ⟨e1, A1⟩ := hu h1 e
    rw [e1]
    simp only
    split
    · exact fr_itemFree A1 a
    · exact Fr.some A1

theorem fr_replaceEnds (A : Apart h r) (c : Cell Info) (b : Nat) : Fr r (h.replaceEnds c b) ((h.plus r).replaceEnds c b) := by
  unfold replaceEnds
  cases c.data.data with
  | text k s => exact Fr.some A
  | node n =>
    simp only
    split
    · exact Fr.some A
    · split
      · exact Fr.none
      · rename_i p _
        cases e : h.setFirstIf c.prev p (some b) with
        | none => exact Fr.none
        | some h1 =>
          obtain ⟨e1, A1⟩ := fr_setFirstIf A c.prev p (some b) h1 e
          rw [e1]
          exact fr_setLastIf A1 _ _ _

theorem fr_itemReplace (A : Apart h r) (a b : Nat) (d : Bool) : Fr r (h.itemReplace a b d) ((h.plus r).itemReplace a b d) := by
  have hu : Fr r (h.itemRelink a b) ((h.plus r).itemRelink a b) := by
    refine Fr.item A fun c _ => ?_
    refine Fr.bind ?_ fun h A => ?_
    · unfold replacePrev
      cases c.prev with
      | none => exact Fr.some A
      | some p =>
        simp only
        cases e : h.setNext p (some b) with
        | none => exact Fr.none
        | some h1 =>
          obtain ⟨e1, A1⟩ := fr_setNext A p (some b) h1 e
          rw [e1]
          exact fr_setPrev A1 _ _
    refine Fr.bind ?_ fun h A => ?_
    · unfold replaceNext
      cases c.next with
      | none => exact Fr.some A
      | some p =>
        simp only
        cases e : h.setPrev p (some b) with
        | none => exact Fr.none
        | some h1 =>
          obtain ⟨e1, A1⟩ := fr_setPrev A p (some b) h1 e
          rw [e1]
          exact fr_setNext A1 _ _
    refine Fr.bind (fr_replaceEnds A _ _) fun h A => ?_
    refine Fr.bind (fr_setNext A _ _) fun h A => ?_
    exact Fr.bind (fr_setPrev A _ _) fun h A => fr_setParent A _ _
  unfold itemReplace
  cases e : h.itemRelink a b with
  | none => exact Fr.none
  | some h1 =>
    obtain ⟨e1, A1⟩ := hu h1 e
    rw [e1]
    simp only
    split
    · exact fr_itemFree A1 a
    · exact Fr.some A1

theorem fr_nodeReplace (A : Apart h r) (n m : Nat) (d : Bool) : Fr r (h.nodeReplace n m d) ((h.plus r).nodeReplace n m d) := by
  have hu : Fr r (h.nodeSwap n m) ((h.plus r).nodeSwap n m) := by
    unfold nodeSwap
    cases e : h.nodes n with
    | none => exact Fr.none
    | some c =>
      rw [A.node e]
      simp only
      cases c.holder with
      | none => exact Fr.some A
      | some a =>
        simp only
        cases e1 : h.items a with
        | none => exact Fr.none
        | some ci =>
          rw [A.item e1]
          simp only
          cases ci.data.parent with
          | none => exact Fr.some A
          | some p =>
            refine Fr.bind (fr_setData A _ _) fun h A => ?_
            exact Fr.bind (fr_setHolder A _ _) fun h A => fr_setHolder A _ _
  unfold nodeReplace
  cases e : h.nodeSwap n m with
  | none => exact Fr.none
  | some h1 =>
    obtain ⟨e1, A1⟩ := hu h1 e
    rw [e1]
    simp only
    split
    · exact fr_nodeFree A1 n
    · exact Fr.some A1

theorem fr_transferLoop (q : Nat) : ∀ (k : Nat) (h : Heap) (o : Option Nat), Apart h r → Fr r (transferLoop q k h o) (transferLoop q k (h.plus r) o)
  | k, h, none, A => by unfold transferLoop; cases k <;> exact Fr.some A
  | 0, _, some _, _ => Fr.none
  | k + 1, h, some a, A => by
    unfold transferLoop
    cases e : h.items a with
    | none => exact Fr.none
    | some c =>
      rw [A.item e]
      simp only
      cases e1 : h.setChildRef q a with
      | none => exact Fr.none
      | some h1 =>
        obtain ⟨e2, A1⟩ := fr_setChildRef A q a h1 e1
        rw [e2]
        exact fr_transferLoop q k h1 c.next A1

theorem fr_transferChilds (A : Apart h r) (p q : Nat) : Fr r (h.transferChilds p q) ((h.plus r).transferChilds p q) := by
  refine Fr.node A fun c _ => ?_
  refine Fr.bind (fr_transferLoop q _ h _ A) fun h A => ?_
  exact Fr.bind (fr_setFirst A _ _) fun h A => fr_setLast A _ _

theorem fr_adoptLoop (ref : Nat) (after : Option Nat) : ∀ (k : Nat) (h : Heap) (a : Nat), Apart h r → FrP r (adoptLoop ref after k h a) (adoptLoop ref after k (h.plus r) a)
  | 0, _, _, _ => FrP.none
  | k + 1, h, a, A => by
    unfold adoptLoop
    cases e : h.items ref with
    | none => exact FrP.none
    | some c =>
      rw [A.item e]
      refine Fr.bindP (fr_setParent A _ _) fun h A => ?_
      cases e : h.items a with
      | none => exact FrP.none
      | some d =>
        rw [A.item e]
        cases hd : d.next with
        | none =>
          simp only [hd, Option.bind_eq_bind, Option.bind_some]
          refine Fr.bindP (fr_setNext A _ _) fun h A => ?_
          exact Fr.bindP (fr_setPrevIf A _ _) fun h A => FrP.some A
        | some b =>
          simp only [hd, Option.bind_eq_bind, Option.bind_some]
          exact fr_adoptLoop ref after k h b A

theorem fr_transferChildsAfter (A : Apart h r) (p a : Nat) : Fr r (h.transferChildsAfter p a) ((h.plus r).transferChildsAfter p a) := by
  refine Fr.node A fun c _ => ?_
  cases c.first with
  | none => exact Fr.some A
  | some first =>
    refine Fr.item A fun d _ => ?_
    refine Fr.bind (fr_setNext A _ _) fun h A => ?_
    refine Fr.bind (fr_setPrev A _ _) fun h A => ?_
    refine FrP.bind (fr_adoptLoop a d.next _ h first A) fun h last A => ?_
    simp only
    have hp : ∀ x, h.parentOf last = some x → (h.plus r).parentOf last = some x := by
      intro x
      unfold parentOf
      cases e : h.items last with
      | none => exact fun e => nomatch e
      | some c => rw [A.item e]; exact id
    cases e : h.parentOf last with
    | none => exact Fr.none
    | some x =>
      rw [hp x e]
      refine Fr.bind (fr_setLastIf A _ _ _) fun h A => ?_
      exact Fr.bind (fr_setFirst A _ _) fun h A => fr_setLast A _ _

theorem fr_emptyLoop : ∀ (k : Nat) (h : Heap) (o : Option Nat) (i j : Nat), Apart h r → FrP r (emptyLoop k h o i j) (emptyLoop k (h.plus r) o i j)
  | k, h, none, i, j, A => by unfold emptyLoop; cases k <;> exact FrP.some A
  | 0, _, some _, _, _, _ => FrP.none
  | k + 1, h, some a, i, j, A => by
    unfold emptyLoop
    cases e : h.items a with
    | none => exact FrP.none
    | some c =>
      rw [A.item e]
      simp only
      split
      · cases e1 : h.itemRemove a true with
        | none => exact FrP.none
        | some h1 =>
          obtain ⟨e2, A1⟩ := fr_itemRemove A a true h1 e1
          rw [e2]
          exact fr_emptyLoop k h1 c.next _ _ A1
      · exact fr_emptyLoop k h c.next _ _ A

theorem fr_setIsEmpty (A : Apart h r) (n : Nat) : Fr r (h.setIsEmpty n) ((h.plus r).setIsEmpty n) := by
  refine Fr.node A fun c _ => ?_
  refine FrP.bind (fr_emptyLoop _ h c.first 0 0 A) fun h x A => ?_
  simp only
  split
  · exact Fr.bind (fr_setFirst A _ _) fun h A => fr_setLast A _ _
  · exact Fr.some A

theorem fr_itemCopyWith {copy : Heap → Nat → Option (Heap × Nat)} (hc : ∀ h n, Apart h r → FrP r (copy h n) (copy (h.plus r) n)) (A : Apart h r) (a p : Nat) :
    FrP r (itemCopyWith copy h a p) (itemCopyWith copy (h.plus r) a p) := by
  unfold itemCopyWith
  cases e : h.items a with
  | none => exact FrP.none
  | some c =>
    rw [A.item e]
    simp only
    cases c.data.data with
    | text k s =>
      simp only
      obtain ⟨e1, A1⟩ := fr_newItem A (.text k s)
      rw [e1]
      exact Fr.map _ (fr_setParent A1 _ _)
    | node n =>
      simp only
      obtain ⟨e1, A1⟩ := fr_newItem A (.text .content [])
      rw [e1]
      refine Fr.bindP (fr_setParent A1 _ _) fun h1 A => ?_
      intro h' b e
      obtain ⟨⟨h2, m⟩, e2, e⟩ := Option.bind_eq_some_iff.1 e
      obtain ⟨e3, A2⟩ := hc h1 n A h2 m e2
      rw [e3]
      refine Fr.bindP (fr_setHolder A2 _ _) (fun h A => ?_) h' b e
      exact Fr.bindP (fr_setData A _ _) fun h A => FrP.some A

theorem fr_copyLoop {copy : Heap → Nat → Option (Heap × Nat)} (hc : ∀ h n, Apart h r → FrP r (copy h n) (copy (h.plus r) n)) (p : Nat) :
    ∀ (k : Nat) (h : Heap) (o : Option Nat), Apart h r → Fr r (copyLoop copy p k h o) (copyLoop copy p k (h.plus r) o)
  | k, h, none, A => by unfold copyLoop; cases k <;> exact Fr.some A
  | 0, _, some _, _ => Fr.none
  | k + 1, h, some a, A => by
    unfold copyLoop
    cases e : itemCopyWith copy h a p with
    | none => exact Fr.none
    | some x =>
      obtain ⟨h1, b⟩ := x
      obtain ⟨e1, A1⟩ := fr_itemCopyWith hc A a p h1 b e
      rw [e1]
      simp only
      cases e2 : h1.setChildRef p b with
      | none => exact Fr.none
      | some h2 =>
        obtain ⟨e3, A2⟩ := fr_setChildRef A1 p b h2 e2
        rw [e3]
        simp only
        cases e4 : h2.items a with
        | none => exact Fr.none
        | some c =>
          rw [A2.item e4]
          exact fr_copyLoop hc p k h2 c.next A2

theorem fr_nodeCopyDepth : ∀ (d : Nat) (h : Heap) (n : Nat), Apart h r → FrP r (nodeCopyDepth d h n) (nodeCopyDepth d (h.plus r) n)
  | 0, _, _, _ => FrP.none
  | d + 1, h, n, A => by
    unfold nodeCopyDepth
    cases e : h.nodes n with
    | none => exact FrP.none
    | some c =>
      rw [A.node e]
      simp only
      obtain ⟨e1, A1⟩ := fr_create A c.name
      rw [e1]
      exact Fr.map _ (fr_copyLoop (fun h n A => fr_nodeCopyDepth d h n A) _ _ _ _ A1)

theorem fr_nodeCopy (A : Apart h r) (n : Nat) (childs : Bool) : FrP r (h.nodeCopy n childs) ((h.plus r).nodeCopy n childs) := by
  cases childs with
  | true => exact fr_nodeCopyDepth _ h n A
  | false =>
    unfold nodeCopy
    simp only
    cases e : h.nodes n with
    | none => exact FrP.none
    | some c =>
      rw [A.node e]
      simp only [Option.map_some]
      rw [(fr_create A c.name).1]
      exact FrP.some (fr_create A c.name).2

theorem itemAt_plus (A : Apart h r) {p i a : Nat} (e : h.itemAt p i = some a) : (h.plus r).itemAt p i = some a := by
  have hn : ∀ (i : Nat) (o : Option Nat), h.nextTimes i o = some a → (h.plus r).nextTimes i o = some a := by
    intro i
    induction i with
    | zero => intro o; cases o <;> exact id
    | succ i ih =>
      intro o
      cases o with
      | none => exact id
      | some b =>
        simp only [nextTimes, itemNext]
        cases e1 : h.items b with
        | none => exact fun e => nomatch e
        | some c => rw [A.item e1]; exact ih c.next
  unfold itemAt itemFirst at e ⊢
  cases e1 : h.nodes p with
  | none => rw [e1] at e; cases e
  | some c =>
    rw [e1] at e
    rw [A.node e1]
    exact hn i c.first e

theorem Fr.at (A : Apart h r) {p i : Nat} {f g : Nat → Option Heap} (hf : ∀ a, Fr r (f a) (g a)) :
    Fr r ((h.itemAt p i).bind f) (((h.plus r).itemAt p i).bind g) := by
  cases e : h.itemAt p i with
  | none => exact Fr.none
  | some a => rw [itemAt_plus A e]; exact hf a

/-- Every call. -/
theorem fr_exec (A : Apart h r) (op : Op) : Fr r (h.exec op) ((h.plus r).exec op) := by
  cases op with
  | create name =>
    simp only [exec]
    rw [(fr_create A name).1]
    exact Fr.some (fr_create A name).2
  | setChild p v => exact fr_setChild A p v
  | setAfter p i v => exact Fr.at A fun a => fr_setAfter A a v
  | setChildRef p v => exact FrP.bind (fr_newRef A v) fun _ b A => fr_setChildRef A p b
  | removeNode n d => exact fr_nodeRemove A n d
  | removeItem p i d => exact Fr.at A fun a => fr_itemRemove A a d
  | replaceItem p i v d => exact Fr.at A fun a => FrP.bind (fr_newRef A v) fun _ b A => fr_itemReplace A a b d
  | replaceNode n m d => exact fr_nodeReplace A n m d
  | transfer p q => exact fr_transferChilds A p q
  | transferAfter p q i => exact Fr.at A fun a => fr_transferChildsAfter A p a
  | setIsEmpty p => exact fr_setIsEmpty A p
  | free n => exact fr_nodeFree A n
  | copy n childs => exact (fr_nodeCopy A n childs).fst

/-! ## A part of the memory that has whole trees -/

open Forest

variable {f : Forest} {own : Nat → Bool}

theorem edge_keep (W : f.Whole own) {n c : Nat} : Edge (f.keep own) n c ↔ Edge f n c ∧ own n = true := by
  simp only [Edge, Forest.keep, Bool.and_eq_true]
  constructor
  · exact fun h => ⟨⟨h.1.1, h.2⟩, h.1.2⟩
  · exact fun h => ⟨⟨h.1.1, h.2⟩, h.1.2⟩

theorem reach_keep (W : f.Whole own) {n m : Nat} (hn : own n = true) : (Reach (f.keep own) n m ↔ Reach f n m) ∧ (Reach f n m → own m = true) := by
  have h1 : Reach f n m → own m = true := by
    intro h
    induction h with
    | refl => exact hn
    | tail _ e ih => rw [← W _ _ e.1 e.2]; exact ih
  refine ⟨⟨fun h => ?_, fun h => ?_⟩, h1⟩
  · clear h1
    induction h with
    | refl => exact .refl
    | tail _ e ih => exact ih.tail ((edge_keep W).1 e).1
  · clear h1
    have : own m = true ∧ Reach (f.keep own) n m := by
      induction h with
      | refl => exact ⟨hn, .refl⟩
      | tail _ e ih => exact ⟨by rw [← W _ _ e.1 e.2]; exact ih.1, ih.2.tail ((edge_keep W).2 ⟨e, ih.1⟩)⟩
    exact this.2

theorem tame_keep (T : Tame f) (W : f.Whole own) : Tame (f.keep own) := by
  refine tame_fewer T rfl (fun n hn => ?_) (fun n c e => ((edge_keep W).1 e).1) (fun n c e => ?_)
  · simp only [Forest.keep, Bool.and_eq_true] at hn
    exact hn.1
  · have h1 := (edge_keep W).1 e
    simp only [Forest.keep, Bool.and_eq_true]
    exact ⟨T.closed _ _ h1.1, by rw [← W _ _ h1.1.1 h1.1.2]; exact h1.2⟩

theorem live_keep {n : Nat} (hn : own n = true) : (f.keep own).live n = f.live n := by
  simp only [Forest.keep, hn, Bool.and_true]

theorem below_keep (T : Tame f) (W : f.Whole own) {n m : Nat} (ho : own n = true) (hn : f.live n = true) : (f.keep own).below n m = f.below n m := by
  rw [Bool.eq_iff_iff, below_iff (tame_keep T W) (by rw [live_keep ho]; exact hn), below_iff T hn]
  exact (reach_keep W ho).1

theorem attached_keep (T : Tame f) (W : f.Whole own) {n : Nat} (ho : own n = true) : (f.keep own).attached n = f.attached n := by
  rw [Bool.eq_iff_iff, attached_iff (tame_keep T W), attached_iff T]
  constructor
  · rintro ⟨p, e⟩
    exact ⟨p, ((edge_keep W).1 e).1⟩
  · rintro ⟨p, e⟩
    exact ⟨p, (edge_keep W).2 ⟨e, by rw [W _ _ e.1 e.2]; exact ho⟩⟩

theorem mayGo_keep (T : Tame f) (W : f.Whole own) {p : Nat} {v : Child} (hv : ∀ n ∈ v.names, own n = true) (h : f.mayGo p v = true) :
    (f.keep own).mayGo p v = true := by
  cases v with
  | text => rfl
  | node n =>
    have ho : own n = true := hv n (by simp [Child.names])
    simp only [Forest.mayGo, Bool.and_eq_true] at h ⊢
    rw [live_keep ho, attached_keep T W ho, below_keep T W ho h.1.1]
    exact h

/-- A call on nodes of `own` may be made when only these are there. -/
theorem fits_keep (T : Tame f) (W : f.Whole own) {op : Op} (ho : ∀ n ∈ op.names, own n = true) (hf : f.fits op = true) : (f.keep own).fits op = true := by
  have hk : ∀ p, (f.keep own).kids p = f.kids p := fun _ => rfl
  have hin : ∀ p i, (f.keep own).inner p i = f.inner p i := fun _ _ => rfl
  cases op with
  | create name => rfl
  | setChild p v =>
    simp only [Op.names, List.mem_cons, forall_eq_or_imp] at ho
    simp only [Forest.fits, Bool.and_eq_true] at hf ⊢
    exact ⟨by rw [live_keep ho.1]; exact hf.1, mayGo_keep T W ho.2 hf.2⟩
  | setChildRef p v =>
    simp only [Op.names, List.mem_cons, forall_eq_or_imp] at ho
    simp only [Forest.fits, Bool.and_eq_true] at hf ⊢
    exact ⟨by rw [live_keep ho.1]; exact hf.1, mayGo_keep T W ho.2 hf.2⟩
  | setAfter p i v =>
    simp only [Op.names, List.mem_cons, forall_eq_or_imp] at ho
    simp only [Forest.fits, Bool.and_eq_true] at hf ⊢
    exact ⟨⟨by rw [live_keep ho.1]; exact hf.1.1, hf.1.2⟩, mayGo_keep T W ho.2 hf.2⟩
  | removeNode n d =>
    have ho := ho n (by simp [Op.names])
    simp only [Forest.fits, Bool.and_eq_true] at hf ⊢
    rw [live_keep ho, attached_keep T W ho]
    exact hf
  | removeItem p i d =>
    have ho := ho p (by simp [Op.names])
    simp only [Forest.fits, Bool.and_eq_true] at hf ⊢
    rw [live_keep ho, hin]
    exact hf
  | replaceItem p i v d =>
    simp only [Op.names, List.mem_cons, forall_eq_or_imp] at ho
    simp only [Forest.fits, Bool.and_eq_true] at hf ⊢
    exact ⟨⟨by rw [live_keep ho.1]; exact hf.1.1, hf.1.2⟩, mayGo_keep T W ho.2 hf.2⟩
  | replaceNode n m d =>
    have ho1 := ho n (by simp [Op.names])
    have ho2 := ho m (by simp [Op.names])
    simp only [Forest.fits, Bool.and_eq_true, List.all_eq_true, List.mem_range] at hf ⊢
    rw [live_keep ho1, attached_keep T W ho1]
    refine ⟨hf.1, fun p hp => ?_⟩
    have := hf.2 p hp
    simp only [Bool.or_eq_true, Bool.not_eq_true'] at this ⊢
    rcases this with h | h
    · left
      simp only [Forest.keep]
      rw [Bool.and_eq_false_iff] at h ⊢
      rcases h with h | h
      · left; simp [h]
      · right; exact h
    · right
      exact mayGo_keep T W (by simp [Child.names, ho2]) h
  | transfer p q =>
    have ho1 := ho p (by simp [Op.names])
    have ho2 := ho q (by simp [Op.names])
    simp only [Forest.fits, Bool.and_eq_true] at hf ⊢
    rw [live_keep ho1, live_keep ho2, below_keep T W ho1 hf.1.1]
    exact hf
  | transferAfter p q i =>
    have ho1 := ho p (by simp [Op.names])
    have ho2 := ho q (by simp [Op.names])
    simp only [Forest.fits, Bool.and_eq_true] at hf ⊢
    rw [live_keep ho1, live_keep ho2, below_keep T W ho1 hf.1.1.1]
    exact hf
  | setIsEmpty p =>
    have ho1 := ho p (by simp [Op.names])
    simp only [Forest.fits, Bool.and_eq_true] at hf ⊢
    rw [live_keep ho1]
    exact hf
  | free n =>
    have ho1 := ho n (by simp [Op.names])
    simp only [Forest.fits, Bool.and_eq_true] at hf ⊢
    rw [live_keep ho1, attached_keep T W ho1]
    exact hf
  | copy n childs =>
    have ho1 := ho n (by simp [Op.names])
    simp only [Forest.fits] at hf ⊢
    rw [live_keep ho1]
    exact hf

/-- The part of the memory is a picture of the part of the nodes. -/
theorem inv_keep (I : Inv h f) (W : f.Whole own) : Inv (h.keep own) (f.keep own) := by
  obtain ⟨⟨ns, R⟩, T⟩ := I
  refine ⟨⟨ns, ?_⟩, tame_keep T W⟩
  have live : ∀ n, (f.keep own).live n = true → f.live n = true ∧ own n = true := by
    intro n hn
    simpa only [Forest.keep, Bool.and_eq_true] using hn
  have owned : ∀ n, f.live n = true → own n = true → ∀ a i, (a, i) ∈ ns n → h.owns own a = true := by
    intro n hn ho a i ha
    obtain ⟨c, hc, rfl⟩ := seg_entry (R.seg n hn) ha
    have e := R.entry hn ha
    unfold owns
    rw [hc]
    simp only
    rw [e.1]
    cases hd : c.data.data with
    | node m =>
      simp only
      rw [← W n m hn (hd ▸ e.2)]
      exact ho
    | text k s => exact ho
  have item : ∀ a, h.owns own a = true → (h.keep own).items a = h.items a := by
    intro a ha
    simp only [keep, ha, if_true]
  refine ⟨R.next, ?_, ?_, ?_, ?_, ?_, ?_, ?_, ?_⟩
  · intro n hn
    obtain ⟨h1, h2⟩ := live n hn
    obtain ⟨hd, e⟩ := R.nodes n h1
    exact ⟨hd, by simp only [keep, h2, if_true]; exact e⟩
  · intro n hn
    simp only [Forest.keep, Bool.and_eq_false_iff] at hn
    simp only [keep]
    rcases hn with hn | hn
    · rw [R.dead n hn]; simp
    · simp [hn]
  · intro n hn
    obtain ⟨h1, h2⟩ := live n hn
    refine seg_frame (fun a ha => ?_) (R.seg n h1)
    obtain ⟨i, hi⟩ := exists_entry ha
    exact item a (owned n h1 h2 a i hi)
  · exact fun n hn => R.nodup n (live n hn).1
  · exact fun n hn => R.info n (live n hn).1
  · intro n a c hn ha
    obtain ⟨h1, h2⟩ := live n hn
    obtain ⟨nd, e1, e2⟩ := R.child n a c h1 ha
    have e := R.entry_edge h1 ha
    have hc : own c = true := by rw [← W _ _ e.1 e.2]; exact h2
    exact ⟨nd, by simp only [keep, hc, if_true]; exact e1, e2⟩
  · intro c nd a hc hnd ha
    obtain ⟨h1, h2⟩ := live c hc
    simp only [keep, h2, if_true] at hnd
    obtain ⟨cell, e1, e2, e3⟩ := R.holder c nd a h1 hnd ha
    have ho : h.owns own a = true := by
      unfold owns
      rw [e1]
      simp only
      rw [e2]
      exact h2
    refine ⟨cell, by rw [item a ho]; exact e1, e2, ?_⟩
    rcases e3 with ⟨n, hn, hm⟩ | e3
    · left
      obtain ⟨i, hi⟩ := exists_entry hm
      obtain ⟨d, hd, rfl⟩ := seg_entry (R.seg n hn) hi
      rw [e1] at hd
      cases hd
      have e := R.entry hn hi
      rw [e2] at e
      refine ⟨n, ?_, hm⟩
      simp only [Forest.keep, Bool.and_eq_true]
      exact ⟨hn, by rw [W n c hn e.2]; exact h2⟩
    · right; exact e3
  · intro a ha
    simp only [keep]
    rw [R.fresh a ha]
    simp

theorem keep_plus_rest (h : Heap) (own : Nat → Bool) : (h.keep own).plus (h.rest own) = h := by
  obtain ⟨nodes, items, nn, ni⟩ := h
  simp only [plus, keep, rest, Heap.mk.injEq, and_true]
  constructor
  · funext n
    by_cases h : own n = true <;> simp [h]
  · funext a
    generalize Heap.owns _ own a = b
    cases b <;> simp

theorem apart_rest (I : Inv h f) (own : Nat → Bool) : Apart (h.keep own) (h.rest own) := by
  obtain ⟨⟨ns, R⟩, T⟩ := I
  constructor
  · intro n c e
    simp only [rest] at e
    split at e
    · cases e
    · rename_i ho
      refine ⟨by simp only [keep]; rw [if_neg ho], ?_⟩
      cases hl : f.live n with
      | true => simp only [keep]; rw [R.next]; exact T.bound n hl
      | false => rw [R.dead n hl] at e; cases e
  · intro a c e
    simp only [rest] at e
    split at e
    · cases e
    · rename_i ho
      refine ⟨by simp only [keep]; rw [if_neg ho], ?_⟩
      refine Classical.byContradiction fun hlt => ?_
      rw [R.fresh a (by simp only [keep] at hlt; omega)] at e
      cases e

/-- A call on nodes of `own` uses only the cells of `own`. -/
theorem exec_keep (I : Inv h f) (W : f.Whole own) {op : Op} (ho : ∀ n ∈ op.names, own n = true) (hf : f.fits op = true) :
    ∃ h', (h.keep own).exec op = some h' ∧ h.exec op = some (h'.plus (h.rest own)) ∧ Apart h' (h.rest own) := by
  obtain ⟨h', e, I'⟩ := inv_exec (inv_keep I W) (fits_keep I.2 W ho hf)
  obtain ⟨e1, A⟩ := fr_exec (apart_rest I own) op h' e
  rw [keep_plus_rest] at e1
  exact ⟨h', e, e1, A⟩

end Axl.Heap
