/-
The operations on items as changes of doubly linked segments.
-/
import Verif.Model.Tree
import Verif.Proofs.Dll

namespace Axl
open Mem

variable {α : Type}

/-- Making the last cell of a segment point to something else. -/
theorem seg_redirect_last {m : Mem α} {A : List (Nat × α)} {n0 : Option Nat}
    (hs : Seg m none A n0) (hnd : (A.map Prod.fst).Nodup) (n1 : Option Nat) {a : Nat}
    (ha : lastAddr A none = some a) :
    ∃ m', m.setNext a n1 = some m' ∧ Seg m' none A n1 ∧ (∀ b, b ≠ a → m' b = m b) := by
  rcases eq_nil_or_concat' A with rfl | ⟨t, c, x, rfl⟩
  · simp at ha
  · rw [lastAddr_concat] at ha
    cases ha
    apply seg_setNext n1 hs
    rw [List.map_append, List.nodup_append] at hnd
    intro hm
    exact hnd.2.2 _ hm _ (by simp) rfl

theorem seg_redirect_head {m : Mem α} {B : List (Nat × α)} {p0 n : Option Nat}
    (hs : Seg m p0 B n) (hnd : (B.map Prod.fst).Nodup) (p1 : Option Nat) {b : Nat}
    (hb : headAddr B none = some b) :
    ∃ m', m.setPrev b p1 = some m' ∧ Seg m' p1 B n ∧ (∀ c, c ≠ b → m' c = m c) := by
  cases B with
  | nil => simp at hb
  | cons e t =>
    obtain ⟨c, x⟩ := e
    simp at hb
    subst hb
    simp at hnd
    exact seg_setPrev p1 hs (by simpa using hnd.1)

theorem lastAddr_mem {A : List (Nat × α)} {a : Nat} (h : lastAddr A none = some a) :
    a ∈ A.map Prod.fst := by
  rcases eq_nil_or_concat' A with rfl | ⟨t, c, x, rfl⟩
  · simp at h
  · rw [lastAddr_concat] at h
    cases h
    simp

theorem headAddr_mem {A : List (Nat × α)} {a : Nat} (h : headAddr A none = some a) :
    a ∈ A.map Prod.fst := by
  cases A with
  | nil => simp at h
  | cons e t => obtain ⟨c, x⟩ := e; simp at h; subst h; simp

namespace Heap

/-! Reading back what a write did. -/

theorem setNextIf_none (h : Heap) (v : Option Nat) : h.setNextIf none v = some h := rfl
theorem setPrevIf_none (h : Heap) (v : Option Nat) : h.setPrevIf none v = some h := rfl

/-- Join two segments: the code does this with two writes. -/
theorem join_next (h : Heap) {A : List (Nat × Info)} {n0 : Option Nat}
    (hs : Seg h.items none A n0) (hnd : (A.map Prod.fst).Nodup) (n1 : Option Nat) :
    ∃ m, h.setNextIf (lastAddr A none) n1 = some { h with items := m } ∧ Seg m none A n1 ∧
      (∀ b, b ∉ A.map Prod.fst → m b = h.items b) := by
  cases e : lastAddr A none with
  | none =>
    rw [lastAddr_eq_none] at e
    subst e
    exact ⟨h.items, rfl, trivial, fun _ _ => rfl⟩
  | some a =>
    obtain ⟨m', h1, h2, h3⟩ := seg_redirect_last hs hnd n1 e
    refine ⟨m', ?_, h2, ?_⟩
    · simp [setNextIf, setNext, h1]
    · intro b hb
      exact h3 b (fun hba => hb (hba ▸ lastAddr_mem e))

theorem join_prev (h : Heap) {B : List (Nat × Info)} {p0 n : Option Nat}
    (hs : Seg h.items p0 B n) (hnd : (B.map Prod.fst).Nodup) (p1 : Option Nat) :
    ∃ m, h.setPrevIf (headAddr B none) p1 = some { h with items := m } ∧ Seg m p1 B n ∧
      (∀ b, b ∉ B.map Prod.fst → m b = h.items b) := by
  cases e : headAddr B none with
  | none =>
    rw [headAddr_eq_none] at e
    subst e
    exact ⟨h.items, rfl, trivial, fun _ _ => rfl⟩
  | some a =>
    obtain ⟨m', h1, h2, h3⟩ := seg_redirect_head hs hnd p1 e
    refine ⟨m', ?_, h2, ?_⟩
    · simp [setPrevIf, setPrev, h1]
    · intro b hb
      exact h3 b (fun hba => hb (hba ▸ headAddr_mem e))

/-- Only the items change. -/
theorem setNext_of {h : Heap} {a : Nat} {c : Cell Info} (ha : h.items a = some c) (v : Option Nat) :
    h.setNext a v = some { h with items := h.items.put a { c with next := v } } := by
  simp [setNext, Mem.setNext, ha]

theorem setPrev_of {h : Heap} {a : Nat} {c : Cell Info} (ha : h.items a = some c) (v : Option Nat) :
    h.setPrev a v = some { h with items := h.items.put a { c with prev := v } } := by
  simp [setPrev, Mem.setPrev, ha]

theorem setParent_of {h : Heap} {a : Nat} {c : Cell Info} (ha : h.items a = some c) (v : Option Nat) :
    h.setParent a v = some { h with items := h.items.put a { c with data := { c.data with parent := v } } } := by
  simp [setParent, ha]

theorem setData_of {h : Heap} {a : Nat} {c : Cell Info} (ha : h.items a = some c) (v : Child) :
    h.setData a v = some { h with items := h.items.put a { c with data := { c.data with data := v } } } := by
  simp [setData, ha]

theorem setFirst_of {h : Heap} {n : Nat} {c : NodeC} (hn : h.nodes n = some c) (v : Option Nat) :
    h.setFirst n v = some (h.putNode n { c with first := v }) := by simp [setFirst, hn]

theorem setLast_of {h : Heap} {n : Nat} {c : NodeC} (hn : h.nodes n = some c) (v : Option Nat) :
    h.setLast n v = some (h.putNode n { c with last := v }) := by simp [setLast, hn]

theorem setHolder_of {h : Heap} {n : Nat} {c : NodeC} (hn : h.nodes n = some c) (v : Option Nat) :
    h.setHolder n v = some (h.putNode n { c with holder := v }) := by simp [setHolder, hn]

@[simp] theorem putNode_items (h : Heap) (n : Nat) (c : NodeC) : (h.putNode n c).items = h.items := rfl
@[simp] theorem putNode_nextItem (h : Heap) (n : Nat) (c : NodeC) :
    (h.putNode n c).nextItem = h.nextItem := rfl
@[simp] theorem putNode_nextNode (h : Heap) (n : Nat) (c : NodeC) :
    (h.putNode n c).nextNode = h.nextNode := rfl
@[simp] theorem putNode_self (h : Heap) (n : Nat) (c : NodeC) : (h.putNode n c).nodes n = some c := by
  simp [putNode]
theorem putNode_ne (h : Heap) {n m : Nat} (c : NodeC) (hm : m ≠ n) :
    (h.putNode n c).nodes m = h.nodes m := by simp [putNode, hm]
@[simp] theorem putNode_putNode (h : Heap) (n : Nat) (c c' : NodeC) :
    (h.putNode n c).putNode n c' = h.putNode n c' := by
  simp only [putNode, Heap.mk.injEq, and_true]
  funext b; split <;> rfl
theorem putNode_id (h : Heap) {n : Nat} {c : NodeC} (hn : h.nodes n = some c) : h.putNode n c = h := by
  cases h
  simp only [putNode, Heap.mk.injEq, and_true]
  funext b
  split
  · rename_i e; rw [e]; exact hn.symm
  · rfl
theorem putNode_items_comm (h : Heap) (n : Nat) (c : NodeC) (m : Mem Info) :
    ({ h.putNode n c with items := m } : Heap) = ({ h with items := m } : Heap).putNode n c := rfl

/-- `a` is an item linked to nothing, holding `v`. -/
def Loose (m : Mem Info) (a : Nat) (v : Child) : Prop := ∃ prt, m a = some ⟨none, none, ⟨prt, v⟩⟩

/-- What `setFirstIf`/`setLastIf` amount to on a node that points to the ends of a chain. -/
theorem fix_ends {h : Heap} {p : Nat} {nd : NodeC} (hn : h.nodes p = some nd)
    {A B : List (Nat × Info)} (first last : Option Nat)
    (hf : A ≠ [] → nd.first = first) (hl : B ≠ [] → nd.last = last)
    (hf' : A = [] → first = vf) (hl' : B = [] → last = vl) :
    ∃ h1, h.setFirstIf (lastAddr A none) p vf = some h1 ∧
      h1.setLastIf (headAddr B none) p vl = some (h.putNode p { nd with first := first, last := last }) := by
  by_cases hA : A = []
  · subst hA
    have := hf' rfl
    subst this
    refine ⟨h.putNode p { nd with first := first }, by simp [setFirstIf, setFirst, hn], ?_⟩
    by_cases hB : B = []
    · subst hB
      have := hl' rfl
      subst this
      simp [setLastIf, setLast]
    · cases B with
      | nil => exact absurd rfl hB
      | cons e t =>
        obtain ⟨b', x'⟩ := e
        have := hl hB
        subst this
        simp [setLastIf]
  · obtain ⟨b, hb⟩ : ∃ b, lastAddr A none = some b := by
      cases e : lastAddr A none with
      | none => exact absurd ((lastAddr_eq_none A).mp e) hA
      | some b => exact ⟨b, rfl⟩
    have hf1 := hf hA
    subst hf1
    refine ⟨h, by simp [setFirstIf, hb], ?_⟩
    by_cases hB : B = []
    · subst hB
      have := hl' rfl
      subst this
      simp [setLastIf, setLast, hn]
    · cases B with
      | nil => exact absurd rfl hB
      | cons e t =>
        obtain ⟨b', x'⟩ := e
        have := hl hB
        subst this
        simp [setLastIf, putNode_id h hn]

/-- What a change to the chain of one node amounts to: the chain is `L`, only the ends of the node
`p` change, and only the items in `D` change. -/
structure Relinked (h h' : Heap) (p : Nat) (L : List (Nat × Info)) (D : List Nat) : Prop where
  nodes : ∀ nd, h.nodes p = some nd →
    h'.nodes p = some { nd with first := headAddr L none, last := lastAddr L none }
  others : ∀ n, n ≠ p → h'.nodes n = h.nodes n
  seg : Seg h'.items none L none
  frame : ∀ b, b ∉ D → h'.items b = h.items b
  nextItem : h'.nextItem = h.nextItem
  nextNode : h'.nextNode = h.nextNode

theorem nodup_split {A B : List (Nat × α)} {a : Nat} {x : α}
    (h : ((A ++ (a, x) :: B).map Prod.fst).Nodup) :
    (A.map Prod.fst).Nodup ∧ (B.map Prod.fst).Nodup ∧ a ∉ A.map Prod.fst ∧ a ∉ B.map Prod.fst ∧
      (∀ b ∈ A.map Prod.fst, b ∉ B.map Prod.fst) := by
  simp only [List.map_append, List.map_cons, List.nodup_append, List.nodup_cons] at h
  obtain ⟨h1, ⟨h2, h3⟩, h4⟩ := h
  refine ⟨h1, h3, ?_, h2, ?_⟩
  · intro hm; exact h4 _ hm _ (by simp) rfl
  · intro b hb hb2; exact h4 _ hb _ (by simp [hb2]) rfl

/-- The two writes around the item that is leaving. -/
theorem join_around (h : Heap) {A B : List (Nat × Info)} {n0 p0 : Option Nat}
    (hA : Seg h.items none A n0) (hB : Seg h.items p0 B none)
    (ndA : (A.map Prod.fst).Nodup) (ndB : (B.map Prod.fst).Nodup)
    (dis : ∀ b ∈ A.map Prod.fst, b ∉ B.map Prod.fst) :
    ∃ m1 m, h.setNextIf (lastAddr A none) (headAddr B none) = some { h with items := m1 } ∧
      ({ h with items := m1 } : Heap).setPrevIf (headAddr B none) (lastAddr A none) =
        some { h with items := m } ∧
      Seg m none (A ++ B) none ∧
      (∀ b, b ∉ A.map Prod.fst → b ∉ B.map Prod.fst → m b = h.items b) := by
  obtain ⟨m1, e1, s1, f1⟩ := h.join_next hA ndA (headAddr B none)
  have hB1 : Seg m1 p0 B none := seg_frame (fun a ha => f1 a (fun hx => dis _ hx ha)) hB
  obtain ⟨m2, e2, s2, f2⟩ := join_prev { h with items := m1 } hB1 ndB (lastAddr A none)
  refine ⟨m1, m2, e1, e2, ?_, ?_⟩
  · rw [seg_append]
    refine ⟨seg_frame (fun a ha => f2 a (dis a ha)) s1, s2⟩
  · intro b hb1 hb2
    rw [f2 b hb2]; exact f1 b hb1

theorem unlink_spec {h : Heap} {p : Nat} {nd : NodeC} {A B : List (Nat × Info)} {a : Nat} {i : Info}
    (hn : h.nodes p = some nd)
    (hf : nd.first = headAddr (A ++ (a, i) :: B) none)
    (hl : nd.last = lastAddr (A ++ (a, i) :: B) none)
    (hs : Seg h.items none (A ++ (a, i) :: B) none)
    (hnd : ((A ++ (a, i) :: B).map Prod.fst).Nodup) :
    ∃ h', h.unlink a p = some h' ∧
      Relinked h h' p (A ++ B) ((A ++ (a, i) :: B).map Prod.fst) ∧
      h'.items a = some ⟨none, none, i⟩ := by
  obtain ⟨ndA, ndB, haA, haB, dis⟩ := nodup_split hnd
  have hcell := seg_mid hs
  rw [seg_append] at hs
  obtain ⟨hA, hB⟩ := hs
  obtain ⟨m1, m, e1, e2, s, fr⟩ := h.join_around hA hB.2 ndA ndB dis
  obtain ⟨h1, e3, e4⟩ := fix_ends (h := { h with items := m }) (p := p) (nd := nd) hn (A := A) (B := B)
    (vf := headAddr B none) (vl := lastAddr A none)
    (headAddr (A ++ B) none) (lastAddr (A ++ B) none)
    (fun hA => by rw [hf]; cases A with | nil => exact absurd rfl hA | cons => rfl)
    (fun hB => by
      rw [hl, lastAddr_append, lastAddr_append, lastAddr_cons, lastAddr_ne_none B hB,
        lastAddr_ne_none B hB (lastAddr A none)])
    (fun hA => by subst hA; rfl)
    (fun hB => by subst hB; simp)
  have hcell' : m a = some ⟨lastAddr A none, headAddr B none, i⟩ := by
    rw [fr a haA haB]; exact hcell
  refine ⟨({ h with items := m.put a ⟨none, none, i⟩ } : Heap).putNode p
    { nd with first := headAddr (A ++ B) none, last := lastAddr (A ++ B) none }, ?_, ?_, ?_⟩
  · unfold unlink
    simp only [hcell, e1, e2, e3, e4, Option.bind_eq_bind, Option.bind_some]
    rw [setPrev_of (c := ⟨lastAddr A none, headAddr B none, i⟩) (by simpa using hcell')]
    simp only [Option.bind_some]
    rw [setNext_of (c := ⟨none, headAddr B none, i⟩) (by simp [Mem.put_self])]
    simp [putNode]
  · constructor
    · intro nd' hnd'
      rw [hn] at hnd'
      cases hnd'
      simp [putNode]
    · intro n hne; simp [putNode, hne]
    · apply seg_put_of_notMem _ s
      simp only [List.map_append, List.mem_append]
      intro hx; exact hx.elim haA haB
    · intro b hb
      simp only [List.map_append, List.map_cons, List.mem_append, List.mem_cons, not_or] at hb
      simp only [putNode_items]
      rw [Mem.put_ne _ _ hb.2.1]
      exact fr b hb.1 hb.2.2
    · rfl
    · rfl
  · simp [Mem.put_self]

/-- `axl_item_remove` on an item that is a node, or that is neither first nor last. -/
theorem itemUnlink_spec {h : Heap} {p : Nat} {nd : NodeC} {A B : List (Nat × Info)} {a : Nat} {i : Info}
    (hn : h.nodes p = some nd)
    (hf : nd.first = headAddr (A ++ (a, i) :: B) none)
    (hl : nd.last = lastAddr (A ++ (a, i) :: B) none)
    (hs : Seg h.items none (A ++ (a, i) :: B) none)
    (hnd : ((A ++ (a, i) :: B).map Prod.fst).Nodup)
    (hp : i.parent = some p)
    (hok : (∃ n, i.data = .node n) ∨ (A ≠ [] ∧ B ≠ [])) :
    ∃ h', h.itemUnlink a = some h' ∧
      Relinked h h' p (A ++ B) ((A ++ (a, i) :: B).map Prod.fst) ∧
      h'.items a = some ⟨none, none, i⟩ := by
  obtain ⟨h', e, R, ha⟩ := unlink_spec hn hf hl hs hnd
  refine ⟨h', ?_, R, ha⟩
  obtain ⟨ndA, ndB, haA, haB, dis⟩ := nodup_split hnd
  have hcell := seg_mid hs
  rw [seg_append] at hs
  obtain ⟨hA, hB⟩ := hs
  obtain ⟨m1, m, e1, e2, s, fr⟩ := h.join_around hA hB.2 ndA ndB dis
  obtain ⟨h1, e3, e4⟩ := fix_ends (h := { h with items := m }) (p := p) (nd := nd) hn (A := A) (B := B)
    (vf := headAddr B none) (vl := lastAddr A none)
    (headAddr (A ++ B) none) (lastAddr (A ++ B) none)
    (fun hA => by rw [hf]; cases A with | nil => exact absurd rfl hA | cons => rfl)
    (fun hB => by
      rw [hl, lastAddr_append, lastAddr_append, lastAddr_cons, lastAddr_ne_none B hB,
        lastAddr_ne_none B hB (lastAddr A none)])
    (fun hA => by subst hA; rfl)
    (fun hB => by subst hB; simp)
  have hcell' : m a = some ⟨lastAddr A none, headAddr B none, i⟩ := by
    rw [fr a haA haB]; exact hcell
  have hends : ({ h with items := m } : Heap).removeEnds ⟨lastAddr A none, headAddr B none, i⟩ =
      some (({ h with items := m } : Heap).putNode p
        { nd with first := headAddr (A ++ B) none, last := lastAddr (A ++ B) none }) := by
    have hboth : A ≠ [] → B ≠ [] → some (({ h with items := m } : Heap)) =
        some (({ h with items := m } : Heap).putNode p
        { nd with first := headAddr (A ++ B) none, last := lastAddr (A ++ B) none }) := by
      intro hA hB
      have h1' : headAddr (A ++ B) none = nd.first := by
        rw [hf]; cases A with | nil => exact absurd rfl hA | cons => rfl
      have h2' : lastAddr (A ++ B) none = nd.last := by
        rw [hl, lastAddr_append, lastAddr_append, lastAddr_cons, lastAddr_ne_none B hB,
          lastAddr_ne_none B hB (some a)]
      rw [h1', h2', putNode_id]
      exact hn
    unfold removeEnds
    dsimp only
    cases hi : i.data with
    | text k s =>
      dsimp only
      rcases hok with ⟨n, hok⟩ | ⟨hA, hB⟩
      · rw [hi] at hok; cases hok
      · exact hboth hA hB
    | node n =>
      dsimp only
      split
      · rename_i x y hx hy
        apply hboth
        · intro hA; subst hA; simp at hx
        · intro hB; subst hB; simp at hy
      · simp only [hp, e3, e4]
  have : h.unlink a p = h.itemUnlink a := by
    unfold unlink itemUnlink
    simp only [hcell, e1, e2, e3, e4, hends, Option.bind_eq_bind, Option.bind_some]
    rw [setPrev_of (c := ⟨lastAddr A none, headAddr B none, i⟩) (by simpa using hcell')]
    rw [setNext_of (c := ⟨lastAddr A none, headAddr B none, i⟩) (by simpa using hcell')]
    simp only [Option.bind_some]
    rw [setNext_of (c := ⟨none, headAddr B none, i⟩) (by simp [Mem.put_self])]
    rw [setPrev_of (c := ⟨lastAddr A none, none, i⟩) (by simp [Mem.put_self])]
    simp
  rw [← this]; exact e

/-- `axl_item_set_child_ref` on an item linked to nothing. -/
theorem setChildRef_spec {h : Heap} {p : Nat} {nd : NodeC} {L : List (Nat × Info)} {a : Nat}
    {prt : Option Nat} {v : Child}
    (hn : h.nodes p = some nd) (hf : nd.first = headAddr L none) (hl : nd.last = lastAddr L none)
    (hs : Seg h.items none L none) (hnd : (L.map Prod.fst).Nodup) (ha : a ∉ L.map Prod.fst)
    (hc : h.items a = some ⟨none, none, ⟨prt, v⟩⟩) :
    ∃ h', h.setChildRef p a = some h' ∧
      Relinked h h' p (L ++ [(a, ⟨some p, v⟩)]) (L.map Prod.fst ++ [a]) := by
  unfold setChildRef
  rw [setParent_of hc]
  simp only [Option.bind_eq_bind, Option.bind_some, hn, hf]
  cases eL : headAddr L none with
  | none =>
    rw [headAddr_eq_none] at eL
    subst eL
    dsimp only
    rw [setFirst_of (c := nd) (by exact hn)]
    simp only [Option.bind_some]
    rw [setLast_of (putNode_self _ _ _)]
    refine ⟨_, rfl, ?_⟩
    constructor
    · intro nd' hnd'
      rw [hn] at hnd'; cases hnd'
      simp
    · intro n hne; simp [putNode, hne]
    · simp [Seg, Mem.put_self]
    · intro b hb
      simp at hb
      simp [Mem.put_ne _ _ hb]
    · rfl
    · rfl
  | some b0 =>
    have hL : L ≠ [] := by intro e; subst e; simp at eL
    obtain ⟨l, hlast⟩ : ∃ l, lastAddr L none = some l := by
      cases e : lastAddr L none with
      | none => exact absurd ((lastAddr_eq_none L).mp e) hL
      | some l => exact ⟨l, rfl⟩
    dsimp only
    rw [hl, hlast]
    dsimp only
    have hs1 : Seg (h.items.put a ⟨none, none, ⟨some p, v⟩⟩) none L none := seg_put_of_notMem ha hs
    obtain ⟨m', e1, s1, f1⟩ := seg_redirect_last hs1 hnd (some a) hlast
    have e1' : ({ h with items := h.items.put a ⟨none, none, ⟨some p, v⟩⟩ } : Heap).setNext l (some a) =
        some { h with items := m' } := by simp [setNext, e1]
    rw [e1']
    simp only [Option.bind_some]
    have hla : a ≠ l := fun e => ha (e ▸ lastAddr_mem hlast)
    have hca : m' a = some ⟨none, none, ⟨some p, v⟩⟩ := by
      rw [f1 a hla, Mem.put_self]
    rw [setPrev_of (h := { h with items := m' }) hca]
    simp only [Option.bind_some]
    rw [setNext_of (Mem.put_self _ _ _)]
    simp only [Option.bind_some, Mem.put_put]
    rw [setLast_of (c := nd) (by exact hn)]
    refine ⟨_, rfl, ?_⟩
    constructor
    · intro nd' hnd'
      rw [hn] at hnd'; cases hnd'
      rw [putNode_self, lastAddr_concat, headAddr_append]
      cases L with
      | nil => exact absurd rfl hL
      | cons e t => rw [hf]; rfl
    · intro n hne; simp [putNode, hne]
    · simp only [putNode_items]
      rw [seg_append]
      refine ⟨seg_put_of_notMem ha s1, ?_⟩
      simp [Seg, Mem.put_self, hlast]
    · intro b hb
      simp only [List.mem_append, List.mem_singleton, not_or] at hb
      simp only [putNode_items]
      rw [Mem.put_ne _ _ hb.2, f1 b (fun e => hb.1 (e ▸ lastAddr_mem hlast)), Mem.put_ne _ _ hb.2]
    · rfl
    · rfl

/-- `axl_item_set_after` once the new item exists and is linked to nothing. -/
theorem insertItem_spec {h : Heap} {p : Nat} {nd : NodeC} {A B : List (Nat × Info)} {a : Nat} {i : Info}
    {b : Nat} {prt : Option Nat} {v : Child}
    (hn : h.nodes p = some nd)
    (hf : nd.first = headAddr (A ++ (a, i) :: B) none)
    (hl : nd.last = lastAddr (A ++ (a, i) :: B) none)
    (hs : Seg h.items none (A ++ (a, i) :: B) none)
    (hnd : ((A ++ (a, i) :: B).map Prod.fst).Nodup)
    (hp : i.parent = some p)
    (hb : b ∉ (A ++ (a, i) :: B).map Prod.fst)
    (hc : h.items b = some ⟨none, none, ⟨prt, v⟩⟩) :
    ∃ h', h.insertItem a p b = some h' ∧
      Relinked h h' p (A ++ (a, i) :: (b, ⟨some p, v⟩) :: B) ((A ++ (a, i) :: B).map Prod.fst ++ [b]) := by
  obtain ⟨ndA, ndB, haA, haB, dis⟩ := nodup_split hnd
  have hcell := seg_mid hs
  simp only [List.map_append, List.map_cons, List.mem_append, List.mem_cons, not_or] at hb
  obtain ⟨hbA, hba, hbB⟩ := hb
  rw [seg_append] at hs
  obtain ⟨hA, hB⟩ := hs
  have hB1 : Seg (h.items.put b ⟨some a, headAddr B none, ⟨some p, v⟩⟩) (some a) B none :=
    seg_put_of_notMem hbB hB.2
  have hend : ∃ m nd', ({ h with items := h.items.put b ⟨some a, headAddr B none, ⟨some p, v⟩⟩ } : Heap).linkAfter
      (headAddr B none) p b = some (({ h with items := m } : Heap).putNode p nd') ∧
      nd' = { nd with last := lastAddr B (some b) } ∧
      Seg m (some b) B none ∧ ∀ x, x ∉ B.map Prod.fst →
        m x = (h.items.put b ⟨some a, headAddr B none, ⟨some p, v⟩⟩) x := by
    cases eB : headAddr B none with
    | none =>
      have := (headAddr_eq_none B).mp eB
      subst this
      refine ⟨_, _, ?_, rfl, trivial, fun _ _ => rfl⟩
      simp only [linkAfter]
      rw [setLast_of (c := nd) (by exact hn)]
      simp [lastAddr]
    | some y =>
      obtain ⟨m', e1, s1, f1⟩ := seg_redirect_head hB1 ndB (some b) eB
      have hBne : B ≠ [] := by intro e; subst e; simp at eB
      refine ⟨m', nd, ?_, ?_, s1, ?_⟩
      · rw [putNode_id]
        · rw [eB] at e1
          simp [linkAfter, setPrev, e1]
        · exact hn
      · rw [lastAddr_ne_none B hBne]
        have : nd.last = lastAddr B none := by
          rw [hl, lastAddr_append, lastAddr_cons, lastAddr_ne_none B hBne]
        rw [← this]
      · intro x hx
        rw [← eB]
        exact f1 x (fun e => hx (e ▸ headAddr_mem eB))
  obtain ⟨m, nd', e1, hnd', s1, f1⟩ := hend
  have hma : m a = some ⟨lastAddr A none, headAddr B none, i⟩ := by
    rw [f1 a haB, Mem.put_ne _ _ (Ne.symm hba)]; exact hcell
  have hmb : m b = some ⟨some a, headAddr B none, ⟨some p, v⟩⟩ := by
    rw [f1 b hbB, Mem.put_self]
  refine ⟨({ h with items := m.put a ⟨lastAddr A none, some b, i⟩ } : Heap).putNode p nd', ?_, ?_⟩
  · unfold insertItem
    simp only [hcell, Option.bind_eq_bind, Option.bind_some]
    rw [setParent_of hc]
    simp only [Option.bind_some]
    rw [setPrev_of (Mem.put_self _ _ _)]
    simp only [Option.bind_some, Mem.put_put]
    rw [setNext_of (Mem.put_self _ _ _)]
    simp only [Option.bind_some, Mem.put_put, hp, e1]
    rw [setNext_of (c := ⟨lastAddr A none, headAddr B none, i⟩) (by simpa using hma)]
    rfl
  · constructor
    · intro nd0 hnd0
      rw [hn] at hnd0; cases hnd0
      rw [putNode_self, hnd', lastAddr_append, lastAddr_cons, lastAddr_cons, headAddr_append, hf]
      congr 2
      cases A with
      | nil => rfl
      | cons e t => rfl
    · intro n hne; simp [putNode, hne]
    · simp only [putNode_items]
      rw [seg_append]
      refine ⟨?_, ?_, ?_, ?_⟩
      · apply seg_put_of_notMem haA
        apply seg_frame _ hA
        intro x hx
        rw [f1 x (dis x hx), Mem.put_ne]
        intro e; subst e; exact hbA hx
      · rw [Mem.put_self]; rfl
      · rw [Mem.put_ne _ _ hba]; exact hmb
      · exact seg_put_of_notMem haB s1
    · intro x hx
      simp only [List.map_append, List.map_cons, List.mem_append, List.mem_cons, List.not_mem_nil, or_false, not_or] at hx
      simp only [putNode_items]
      rw [Mem.put_ne _ _ hx.1.2.1, f1 x hx.1.2.2, Mem.put_ne _ _ hx.2]
    · rfl
    · rfl

/-- `axl_item_replace` on an item that is a node, or that is neither first nor last, by an item
that is linked to nothing. -/
theorem itemRelink_spec {h : Heap} {p : Nat} {nd : NodeC} {A B : List (Nat × Info)} {a : Nat} {i : Info}
    {b : Nat} {prt : Option Nat} {v : Child}
    (hn : h.nodes p = some nd)
    (hf : nd.first = headAddr (A ++ (a, i) :: B) none)
    (hl : nd.last = lastAddr (A ++ (a, i) :: B) none)
    (hs : Seg h.items none (A ++ (a, i) :: B) none)
    (hnd : ((A ++ (a, i) :: B).map Prod.fst).Nodup)
    (hp : i.parent = some p)
    (hok : (∃ n, i.data = .node n) ∨ (A ≠ [] ∧ B ≠ []))
    (hb : b ∉ (A ++ (a, i) :: B).map Prod.fst)
    (hc : h.items b = some ⟨none, none, ⟨prt, v⟩⟩) :
    ∃ h', h.itemRelink a b = some h' ∧
      Relinked h h' p (A ++ (b, ⟨some p, v⟩) :: B) ((A ++ (a, i) :: B).map Prod.fst ++ [b]) ∧
      h'.items a = some ⟨none, none, i⟩ := by
  obtain ⟨ndA, ndB, haA, haB, dis⟩ := nodup_split hnd
  have hcell := seg_mid hs
  simp only [List.map_append, List.map_cons, List.mem_append, List.mem_cons, not_or] at hb
  obtain ⟨hbA, hba, hbB⟩ := hb
  rw [seg_append] at hs
  obtain ⟨hA, hB⟩ := hs
  -- first pair of writes
  have step1 : ∃ m, h.replacePrev (lastAddr A none) b = some { h with items := m } ∧
      Seg m none A (some b) ∧ m b = some ⟨lastAddr A none, none, ⟨prt, v⟩⟩ ∧
      ∀ x, x ∉ A.map Prod.fst → x ≠ b → m x = h.items x := by
    cases e : lastAddr A none with
    | none =>
      have := (lastAddr_eq_none A).mp e
      subst this
      exact ⟨h.items, rfl, trivial, hc, fun _ _ _ => rfl⟩
    | some y =>
      obtain ⟨m', e1, s1, f1⟩ := seg_redirect_last hA ndA (some b) e
      have hyb : b ≠ y := fun e' => hbA (e' ▸ lastAddr_mem e)
      have e1' : h.setNext y (some b) = some { h with items := m' } := by simp [setNext, e1]
      refine ⟨m'.put b ⟨some y, none, ⟨prt, v⟩⟩, ?_, seg_put_of_notMem hbA s1, Mem.put_self _ _ _, ?_⟩
      · simp only [replacePrev, e1']
        rw [setPrev_of (c := ⟨none, none, ⟨prt, v⟩⟩)]
        show m' b = _
        rw [f1 b hyb]; exact hc
      · intro x hx hxb
        rw [Mem.put_ne _ _ hxb]
        exact f1 x (fun e' => hx (e' ▸ lastAddr_mem e))
  obtain ⟨m1, e1, s1, c1, f1⟩ := step1
  have hB1 : Seg m1 (some a) B none := seg_frame (fun x hx => f1 x (fun hxA => dis x hxA hx)
    (fun e => hbB (e ▸ hx))) hB.2
  have step2 : ∃ m, ({ h with items := m1 } : Heap).replaceNext (headAddr B none) b = some { h with items := m } ∧
      Seg m (some b) B none ∧ m b = some ⟨lastAddr A none, headAddr B none, ⟨prt, v⟩⟩ ∧
      ∀ x, x ∉ B.map Prod.fst → x ≠ b → m x = m1 x := by
    cases e : headAddr B none with
    | none =>
      have := (headAddr_eq_none B).mp e
      subst this
      exact ⟨m1, rfl, trivial, c1, fun _ _ _ => rfl⟩
    | some y =>
      obtain ⟨m', e1, s1, f1⟩ := seg_redirect_head hB1 ndB (some b) e
      have hyb : b ≠ y := fun e' => hbB (e' ▸ headAddr_mem e)
      have e1' : ({ h with items := m1 } : Heap).setPrev y (some b) = some { h with items := m' } := by
        simp [setPrev, e1]
      refine ⟨m'.put b ⟨lastAddr A none, some y, ⟨prt, v⟩⟩, ?_, seg_put_of_notMem hbB s1, Mem.put_self _ _ _, ?_⟩
      · simp only [replaceNext, e1']
        rw [setNext_of (c := ⟨lastAddr A none, none, ⟨prt, v⟩⟩)]
        show m' b = _
        rw [f1 b hyb]; exact c1
      · intro x hx hxb
        rw [Mem.put_ne _ _ hxb]
        exact f1 x (fun e' => hx (e' ▸ headAddr_mem e))
  obtain ⟨m2, e2, s2, c2, f2⟩ := step2
  obtain ⟨h1, e3, e4⟩ := fix_ends (h := { h with items := m2 }) (p := p) (nd := nd) hn (A := A) (B := B)
    (vf := some b) (vl := some b)
    (headAddr (A ++ (b, (⟨some p, v⟩ : Info)) :: B) none) (lastAddr (A ++ (b, (⟨some p, v⟩ : Info)) :: B) none)
    (fun hA => by rw [hf]; cases A with | nil => exact absurd rfl hA | cons => rfl)
    (fun hB => by
      rw [hl, lastAddr_append, lastAddr_append, lastAddr_cons, lastAddr_cons, lastAddr_ne_none B hB,
        lastAddr_ne_none B hB (some b)])
    (fun hA => by subst hA; rfl)
    (fun hB => by subst hB; simp [lastAddr_concat])
  have hends : ({ h with items := m2 } : Heap).replaceEnds ⟨lastAddr A none, headAddr B none, i⟩ b =
      some (({ h with items := m2 } : Heap).putNode p
        { nd with first := headAddr (A ++ (b, (⟨some p, v⟩ : Info)) :: B) none,
                  last := lastAddr (A ++ (b, (⟨some p, v⟩ : Info)) :: B) none }) := by
    have hboth : A ≠ [] → B ≠ [] → some (({ h with items := m2 } : Heap)) =
        some (({ h with items := m2 } : Heap).putNode p
        { nd with first := headAddr (A ++ (b, (⟨some p, v⟩ : Info)) :: B) none,
                  last := lastAddr (A ++ (b, (⟨some p, v⟩ : Info)) :: B) none }) := by
      intro hA hB
      have h1' : headAddr (A ++ (b, (⟨some p, v⟩ : Info)) :: B) none = nd.first := by
        rw [hf]; cases A with | nil => exact absurd rfl hA | cons => rfl
      have h2' : lastAddr (A ++ (b, (⟨some p, v⟩ : Info)) :: B) none = nd.last := by
        rw [hl, lastAddr_append, lastAddr_append, lastAddr_cons, lastAddr_cons, lastAddr_ne_none B hB,
          lastAddr_ne_none B hB (some a)]
      rw [h1', h2', putNode_id]
      exact hn
    unfold replaceEnds
    dsimp only
    cases hi : i.data with
    | text k s =>
      dsimp only
      rcases hok with ⟨n, hok⟩ | ⟨hA, hB⟩
      · rw [hi] at hok; cases hok
      · exact hboth hA hB
    | node n =>
      dsimp only
      split
      · rename_i x y hx hy
        apply hboth
        · intro hA; subst hA; simp at hx
        · intro hB; subst hB; simp at hy
      · simp only [hp, e3, e4]
  have hma : m2 a = some ⟨lastAddr A none, headAddr B none, i⟩ := by
    rw [f2 a haB (Ne.symm hba), f1 a haA (Ne.symm hba)]; exact hcell
  refine ⟨({ h with items := (m2.put a ⟨none, none, i⟩).put b ⟨lastAddr A none, headAddr B none, ⟨some p, v⟩⟩ } : Heap).putNode p
        { nd with first := headAddr (A ++ (b, (⟨some p, v⟩ : Info)) :: B) none,
                  last := lastAddr (A ++ (b, (⟨some p, v⟩ : Info)) :: B) none }, ?_, ?_, ?_⟩
  · unfold itemRelink
    simp only [hcell, e1, e2, hends, Option.bind_eq_bind, Option.bind_some]
    rw [setNext_of (c := ⟨lastAddr A none, headAddr B none, i⟩) (by simpa using hma)]
    simp only [Option.bind_some]
    rw [setPrev_of (Mem.put_self _ _ _)]
    simp only [Option.bind_some, Mem.put_put]
    rw [setParent_of (c := ⟨lastAddr A none, headAddr B none, ⟨prt, v⟩⟩)]
    · simp [hp, putNode]
    · show Mem.put _ _ _ _ = _
      rw [Mem.put_ne _ _ hba]; exact c2
  · constructor
    · intro nd0 hnd0
      rw [hn] at hnd0; cases hnd0
      rw [putNode_self]
    · intro n hne; simp [putNode, hne]
    · simp only [putNode_items]
      rw [seg_append]
      refine ⟨?_, ?_, ?_⟩
      · apply seg_put_of_notMem hbA
        apply seg_put_of_notMem haA
        exact seg_frame (fun x hx => f2 x (dis x hx) (fun e => hbA (e ▸ hx))) s1
      · rw [Mem.put_self]
      · apply seg_put_of_notMem hbB
        exact seg_put_of_notMem haB s2
    · intro x hx
      simp only [List.map_append, List.map_cons, List.mem_append, List.mem_cons, List.not_mem_nil, or_false, not_or] at hx
      simp only [putNode_items]
      rw [Mem.put_ne _ _ hx.2, Mem.put_ne _ _ hx.1.2.1, f2 x hx.1.2.2 hx.2, f1 x hx.1.1 hx.2]
    · rfl
    · rfl
  · simp only [putNode_items]
    rw [Mem.put_ne _ _ (Ne.symm hba), Mem.put_self]

end Heap
end Axl
