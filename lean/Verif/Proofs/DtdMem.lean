/-
The blocks of the stream and of the DTD while a DTD is parsed (`Axl.DtdMem`).
-/
import Verif.Spec.DtdMem

namespace Axl
namespace DtdMem
open Str Dtd

/-! ### Running -/

theorem bind_ret {α β : Type} {m : M α} {f : α → M β} {w w' : World} {a : α} (h : m w = .ret a w') :
    (m >>= f) w = f a w' := by
  show M.bind m f w = _
  simp [M.bind, h]

theorem bind_ub {α β : Type} {m : M α} {f : α → M β} {w : World} (h : m w = .ub) : (m >>= f) w = .ub := by
  show M.bind m f w = _
  simp [M.bind, h]

theorem bind_loop {α β : Type} {m : M α} {f : α → M β} {w : World} (h : m w = .loop) : (m >>= f) w = .loop := by
  show M.bind m f w = _
  simp [M.bind, h]

theorem pure_eq {α : Type} (a : α) (w : World) : (pure a : M α) w = .ret a w := rfl

theorem bind_pure_run {α β : Type} (a : α) (f : α → M β) (w : World) : ((pure a : M α) >>= f) w = f a w := bind_ret rfl

theorem bind_setS {β : Type} (s : MStream) (f : Unit → M β) (w : World) :
    (setS s >>= f) w = f () { w with stream := some s } := bind_ret rfl

theorem bind_setD {β : Type} (d : MDtd) (f : Unit → M β) (w : World) :
    (setD d >>= f) w = f () { w with dtd := some d } := bind_ret rfl

theorem bind_alloc {β : Type} (f : Nat → M β) (w : World) :
    (alloc >>= f) w = f w.next { w with heap := w.next :: w.heap, next := w.next + 1 } := bind_ret rfl

theorem use_eq {w : World} {i : Nat} (h : i ∈ w.heap) : use i w = .ret () w := by simp [use, h]

theorem bind_use {β : Type} {w : World} {i : Nat} (h : i ∈ w.heap) (f : Unit → M β) : (use i >>= f) w = f () w :=
  bind_ret (use_eq h)

theorem bind_assoc {α β γ : Type} (m : M α) (f : α → M β) (g : β → M γ) : ((m >>= f) >>= g) = (m >>= fun a => f a >>= g) := by
  funext w
  show M.bind (M.bind m f) g w = M.bind m (fun a => M.bind (f a) g) w
  unfold M.bind
  cases m w <;> rfl

/-- Two lists of blocks with the same blocks. -/
macro "blocks" : tactic =>
  `(tactic| (refine List.perm_iff_count.2 fun i => ?_; simp only [List.count_append, List.count_cons, List.count_nil, List.flatten_cons, List.flatten_nil, List.map_cons, List.map_nil, List.map_append, List.flatten_append, Option.toList_some, Option.toList_none, List.append_nil, List.nil_append, Option.map_some, Option.map_none]; try omega))

/-! ### Releasing -/

/-- The function releases these blocks, and does nothing else. -/
def Frees (m : M Unit) (ids : List Nat) : Prop :=
  ∀ (w : World) (tmp : List Nat), w.heap.Perm (ids ++ tmp) → ∃ h, m w = .ret () { w with heap := h } ∧ h.Perm tmp

theorem Frees.perm {m : M Unit} {a b : List Nat} (h : Frees m a) (p : a.Perm b) : Frees m b :=
  fun w tmp hw => h w tmp (hw.trans (p.symm.append_right tmp))

theorem Frees.nothing : Frees (pure ()) [] := fun w tmp hw => ⟨w.heap, rfl, hw⟩

theorem frees_free (i : Nat) : Frees (free i) [i] := by
  intro w tmp hw
  have hm : i ∈ w.heap := hw.mem_iff.2 (by simp)
  refine ⟨w.heap.erase i, by simp [free, hm], ?_⟩
  have := hw.erase i
  simpa using this

theorem Frees.seq {m n : M Unit} {a b : List Nat} (h : Frees m a) (k : Frees n b) : Frees (do m; n) (a ++ b) := by
  intro w tmp hw
  rw [List.append_assoc] at hw
  obtain ⟨h1, e1, p1⟩ := h w _ hw
  obtain ⟨h2, e2, p2⟩ := k { w with heap := h1 } _ p1
  exact ⟨h2, by rw [bind_ret e1]; exact e2, p2⟩

theorem frees_freeOpt (o : Option Nat) : Frees (freeOpt o) o.toList := by
  cases o with
  | none => exact .nothing
  | some i => exact frees_free i

theorem frees_freeList (o : Option Nat) {m : M Unit} {ids : List Nat} (h : Frees m ids) (hn : o = none → ids = []) :
    Frees (freeList o m) (o.toList ++ ids) := by
  cases o with
  | none => simpa [freeList, hn rfl] using Frees.nothing
  | some i => exact (h.seq (frees_free i)).perm (by blocks)

theorem frees_freeEach {α : Type} {f : α → M Unit} {g : α → List Nat} : ∀ {l : List α}, (∀ a ∈ l, Frees (f a) (g a)) →
    Frees (freeEach f l) (l.map g).flatten
  | [], _ => .nothing
  | a :: as, h => by
    rw [List.map_cons, List.flatten_cons]
    exact (h a (by simp)).seq (frees_freeEach (l := as) fun b hb => h b (by simp [hb]))

mutual
/-- A list of items that was not created has no items. -/
def MPart.Made : MPart → Prop
  | .node _ _ _ => True
  | .list _ _ _ _ itemList parts => (itemList = none → parts = []) ∧ PartsMade parts
def PartsMade : List MPart → Prop
  | [] => True
  | p :: ps => p.Made ∧ PartsMade ps
end

theorem partsMade_append : ∀ {a b : List MPart}, PartsMade (a ++ b) ↔ PartsMade a ∧ PartsMade b
  | [], b => by simp [PartsMade]
  | p :: ps, b => by simp [PartsMade, partsMade_append (a := ps), and_assoc]

theorem partsBlocks_append : ∀ (a b : List MPart), partsBlocks (a ++ b) = partsBlocks a ++ partsBlocks b
  | [], b => by simp [partsBlocks]
  | p :: ps, b => by simp [partsBlocks, partsBlocks_append ps b]

theorem partsVal_append : ∀ (a b : List MPart), partsVal (a ++ b) = partsVal a ++ partsVal b
  | [], b => by simp [partsVal]
  | p :: ps, b => by simp [partsVal, partsVal_append ps b]

theorem partsVal_map : ∀ (a : List MPart), partsVal a = a.map MPart.val
  | [] => rfl
  | p :: ps => by simp [partsVal, partsVal_map ps]

mutual
theorem frees_freePart : ∀ (p : MPart), p.Made → Frees (freePart p) p.blocks
  | .node id _ name, _ => by
    unfold freePart MPart.blocks
    exact ((frees_free _).seq (frees_free _)).perm (by blocks)
  | .list id l _ _ itemList parts, h => by
    unfold freePart MPart.blocks
    unfold MPart.Made at h
    refine ((frees_freeList itemList (frees_freeParts parts h.2) fun e => by simp [h.1 e, partsBlocks]).seq
      ((frees_free _).seq (frees_free _))).perm (by blocks)
theorem frees_freeParts : ∀ (ps : List MPart), PartsMade ps → Frees (freeParts ps) (partsBlocks ps)
  | [], _ => by
    unfold freeParts partsBlocks
    exact .nothing
  | p :: ps, h => by
    unfold freeParts partsBlocks
    unfold PartsMade at h
    exact (frees_freePart p h.1).seq (frees_freeParts ps h.2)
end

/-- A list of items is there if and only if there are items. -/
def MContent.Made (l : MContent) : Prop := (l.itemList = none ↔ l.parts = []) ∧ PartsMade l.parts

def MElement.Made (e : MElement) : Prop := ∀ l, e.type.list = some l → l.Made

theorem frees_freeContent {l : MContent} (h : l.Made) : Frees (freeContent l) l.blocks := by
  unfold freeContent MContent.blocks
  exact ((frees_freeList _ (frees_freeParts _ h.2) fun e => by simp [h.1.1 e, partsBlocks]).seq (frees_free _)).perm (by blocks)

theorem frees_freeElement {e : MElement} (h : e.Made) : Frees (freeElement e) e.blocks := by
  unfold freeElement MElement.blocks MType.blocks
  cases he : e.type.list with
  | none => exact ((frees_free _).seq (Frees.nothing.seq (frees_free _))).perm (by blocks)
  | some l => exact ((frees_free _).seq ((frees_freeContent (h l he)).seq (frees_free _))).perm (by blocks)

theorem frees_texts (ts : List Text) : Frees (freeEach (fun t => free t.id) ts) (ts.map (·.id)) := by
  have := frees_freeEach (f := fun t : Text => free t.id) (g := fun t => [t.id]) (l := ts) fun t _ => frees_free t.id
  refine this.perm ?_
  have e : ∀ ts : List Text, (ts.map fun t => [t.id]).flatten = ts.map (·.id) := by
    intro ts
    induction ts with
    | nil => rfl
    | cons t ts ih => simp [ih]
  rw [e]

theorem frees_freeDecl (x : MDecl) : Frees (freeDecl x) x.blocks := by
  unfold freeDecl MDecl.blocks
  cases he : x.enum with
  | none => exact ((frees_free _).seq ((frees_freeOpt _).seq (Frees.nothing.seq (frees_free _)))).perm (by blocks)
  | some p =>
    refine ((frees_free _).seq ((frees_freeOpt _).seq ((frees_freeList (some p.1) (frees_texts p.2) (by simp)).seq (frees_free _)))).perm ?_
    blocks

theorem frees_freeAttr (a : MAttr) : Frees (freeAttr a) a.blocks := by
  unfold freeAttr MAttr.blocks
  refine ((frees_free _).seq ((frees_freeList (some a.list) (frees_freeEach fun x _ => frees_freeDecl x) (by simp)).seq (frees_free _))).perm ?_
  blocks

theorem frees_freeEntity (e : MEntity) : Frees (freeEntity e) e.blocks := by
  unfold freeEntity MEntity.blocks
  exact ((frees_freeOpt _).seq ((frees_freeOpt _).seq (frees_free _))).perm (by blocks)

/-- What always holds of a DTD in construction: a list that was not created has no items. -/
structure MDtd.Made (d : MDtd) : Prop where
  els  : d.elements = none → d.els = []
  atts : d.attributes = none → d.atts = []
  ents : d.entities = none → d.ents = []
  each : ∀ e ∈ d.els, e.Made

/-- `axl_dtd_free` releases the blocks of the DTD. -/
theorem dtdFree_run {w : World} {d : MDtd} (hd : w.dtd = some d) (hm : d.Made) {tmp : List Nat}
    (hw : w.heap.Perm (d.blocks ++ tmp)) : ∃ h, dtdFree w = .ret () { w with heap := h, dtd := none } ∧ h.Perm tmp := by
  have f1 := frees_freeList d.elements (frees_freeEach (f := freeElement) (g := MElement.blocks) (l := d.els) fun e he => frees_freeElement (hm.each e he))
    fun e => by simp [hm.els e]
  have f2 := frees_freeList d.entities (frees_freeEach (l := d.ents) fun e _ => frees_freeEntity e) fun e => by simp [hm.ents e]
  have f3 := frees_freeList d.attributes (frees_freeEach (l := d.atts) fun e _ => frees_freeAttr e) fun e => by simp [hm.atts e]
  obtain ⟨h, e, p⟩ := (f1.seq (f2.seq (f3.seq (frees_free d.id)))) w tmp (hw.trans (by unfold MDtd.blocks; blocks))
  refine ⟨h, ?_, p⟩
  unfold dtdFree
  rw [bind_ret (show getD w = .ret d w by simp [getD, hd])]
  have e2 : (do
      freeList d.elements (freeEach freeElement d.els)
      freeList d.entities (freeEach freeEntity d.ents)
      freeList d.attributes (freeEach freeAttr d.atts)
      free d.id
      dropDtd : M Unit) = ((do
      freeList d.elements (freeEach freeElement d.els)
      freeList d.entities (freeEach freeEntity d.ents)
      freeList d.attributes (freeEach freeAttr d.atts)
      free d.id : M Unit) >>= fun _ => dropDtd) := by
    simp only [bind_assoc]
  rw [e2, bind_ret e]
  rfl

end DtdMem
end Axl
