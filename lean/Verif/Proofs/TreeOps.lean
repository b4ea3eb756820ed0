/-
Each call keeps the memory a picture of the forest.
-/
import Verif.Proofs.TreeFree

namespace Axl.Heap
open Spec.Tree Spec.Tree.Forest

/-- The memory is a picture of the forest. -/
def Inv (h : Heap) (f : Forest) : Prop := (∃ ns, Rep h f ns) ∧ Tame f

variable {h : Heap} {f : Forest} {ns : Nat → List (Nat × Info)}

theorem Rep.congr (R : Rep h f ns) {f' : Forest} (h1 : f'.next = f.next) (h2 : f'.live = f.live)
    (h3 : f'.name = f.name) (h4 : ∀ n, f.live n = true → f'.kids n = f.kids n) : Rep h f' ns := by
  obtain ⟨nx, lv, nm, kd⟩ := f'
  dsimp only at h1 h2 h3 h4
  subst h1 h2 h3
  refine ⟨R.next, R.nodes, R.dead, R.seg, R.nodup, ?_, R.child, R.holder, R.fresh⟩
  intro n hn
  dsimp only at hn ⊢
  rw [h4 n hn]; exact R.info n hn

theorem tame_congr (T : Tame f) {f' : Forest} (h1 : f'.next = f.next) (h2 : f'.live = f.live)
    (h4 : ∀ n, f.live n = true → f'.kids n = f.kids n) : Tame f' := by
  have he : ∀ n c, Edge f' n c → Edge f n c := by
    intro n c e
    have hn : f.live n = true := by rw [← h2]; exact e.1
    exact ⟨hn, by rw [← h4 n hn]; exact e.2⟩
  exact tame_fewer T h1 (fun n hn => by rw [← h2]; exact hn) he
    (fun n c e => by rw [h2]; exact T.closed n c (he n c e))

theorem Inv.congr (I : Inv h f) {f' : Forest} (h1 : f'.next = f.next) (h2 : f'.live = f.live)
    (h3 : f'.name = f.name) (h4 : ∀ n, f.live n = true → f'.kids n = f.kids n) : Inv h f' := by
  obtain ⟨⟨ns, R⟩, T⟩ := I
  exact ⟨⟨ns, R.congr h1 h2 h3 h4⟩, tame_congr T h1 h2 h4⟩

theorem inv_empty : Inv Heap.empty Forest.empty := by
  refine ⟨⟨fun _ => [], ?_⟩, ?_⟩
  · constructor <;> intros <;> first | rfl | (simp [Forest.empty] at *)
  · constructor
    · intro n hn; simp [Forest.empty] at hn
    · intro n c e; simp [Edge, Forest.empty] at e
    · exact ⟨fun _ => 0, fun n c e => by simp [Edge, Forest.empty] at e⟩

theorem inv_create (I : Inv h f) (name : List Char) : Inv (h.create name).1 (f.step (.create name)) := by
  obtain ⟨⟨ns, R⟩, T⟩ := I
  refine ⟨⟨_, R.create T name⟩, ?_⟩
  have he : ∀ n c, Edge (f.step (.create name)) n c → Edge f n c := by
    intro n c e
    obtain ⟨e1, e2⟩ := e
    simp only [step, add] at e1 e2
    by_cases hn : n = f.next
    · simp [hn] at e2
    · simp only [hn, if_false] at e1 e2
      exact ⟨e1, e2⟩
  constructor
  · intro n hn
    simp only [step, add] at hn ⊢
    by_cases e : n = f.next
    · omega
    · simp only [e, if_false] at hn
      have := T.bound n hn
      omega
  · intro n c e
    have := T.closed n c (he n c e)
    simp [step, add, this]
  · obtain ⟨r, hr⟩ := T.rank
    exact ⟨r, fun n c e => hr n c (he n c e)⟩

theorem inv_setChild (I : Inv h f) {p : Nat} {v : Child} (hp : f.live p = true)
    (hv : f.mayGo p v = true) :
    ∃ h', h.setChild p v = some h' ∧ Inv h' (f.setKids p (f.kids p ++ [v])) := by
  obtain ⟨⟨ns, R⟩, T⟩ := I
  obtain ⟨h1, a, e1, R1, hr, _⟩ := R.commonConfigure T hp hv
  obtain ⟨h2, ns', e2, R2⟩ := R1.setChildRef hp hr
  refine ⟨h2, ?_, ⟨ns', R2⟩, tame_setKids T hv ?_⟩
  · simp only [Heap.setChild, e1, Option.bind_eq_bind, Option.bind_some]; exact e2
  · intro c hc; simpa using hc

theorem inv_setChildRef (I : Inv h f) {p : Nat} {v : Child} (hp : f.live p = true)
    (hv : f.mayGo p v = true) :
    ∃ h1 a h', h.newRef v = some (h1, a) ∧ h1.setChildRef p a = some h' ∧
      Inv h' (f.setKids p (f.kids p ++ [v])) := by
  obtain ⟨⟨ns, R⟩, T⟩ := I
  obtain ⟨h1, a, e1, R1, hr, _⟩ := R.newRef T hv
  obtain ⟨h2, ns', e2, R2⟩ := R1.setChildRef hp hr
  refine ⟨h1, a, h2, e1, e2, ⟨ns', R2⟩, tame_setKids T hv ?_⟩
  intro c hc; simpa using hc

theorem inv_setAfter (I : Inv h f) {p i : Nat} {v : Child} (hp : f.live p = true)
    (hi : i < (f.kids p).length) (hv : f.mayGo p v = true) :
    ∃ a h', h.itemAt p i = some a ∧ h.setAfter a v = some h' ∧
      Inv h' (f.setKids p ((f.kids p).take (i + 1) ++ v :: (f.kids p).drop (i + 1))) := by
  obtain ⟨⟨ns, R⟩, T⟩ := I
  obtain ⟨A, B, a, ha, hsplit, hlen, _, _⟩ := R.itemAt hp (List.getElem?_eq_getElem hi)
  obtain ⟨h1, b, e1, R1, hr, _⟩ := R.commonConfigure T hp hv
  obtain ⟨h2, ns', e2, R2⟩ := R1.insertItem hp hsplit hlen hr
  refine ⟨a, h2, ha, ?_, ⟨ns', R2⟩, tame_setKids T hv ?_⟩
  · have hs := R.seg p hp
    rw [hsplit] at hs
    simp only [Heap.setAfter, seg_mid hs, Option.bind_eq_bind, Option.bind_some, e1]
    exact e2
  · intro c hc
    rcases List.mem_append.mp hc with hc | hc
    · exact Or.inl (List.mem_of_mem_take hc)
    · rcases List.mem_cons.mp hc with hc | hc
      · exact Or.inr hc
      · exact Or.inl (List.mem_of_mem_drop hc)

/-! ### Taking out -/

/-- The entry of a child node is the only one with that node. -/
theorem Rep.only (R : Rep h f ns) {p n a : Nat} {A B : List (Nat × Info)} (hp : f.live p = true)
    (hsplit : ns p = A ++ (a, ⟨some p, .node n⟩) :: B) :
    ∀ e ∈ A ++ B, e.2.data ≠ .node n := by
  rintro ⟨b, ⟨x, y⟩⟩ he hd
  dsimp only at hd
  subst hd
  have hm : (b, (⟨x, .node n⟩ : Info)) ∈ ns p := by
    rw [hsplit]
    rcases List.mem_append.mp he with he | he <;> simp [he]
  have hx := (R.entry hp hm).1
  dsimp only at hx
  subst hx
  obtain ⟨nd, h1, h2⟩ := R.child p b n hp hm
  obtain ⟨nd', h1', h2'⟩ := R.child p a n hp (by rw [hsplit]; simp)
  rw [h1] at h1'; cases h1'
  rw [h2] at h2'; cases h2'
  have hnd := R.nodup p hp
  rw [hsplit] at hnd
  obtain ⟨_, _, n3, n4, _⟩ := nodup_split hnd
  rcases List.mem_append.mp he with he | he
  · exact n3 (entry_mem he)
  · exact n4 (entry_mem he)

theorem Rep.erase_eq (R : Rep h f ns) {p a : Nat} {v : Child} {A B : List (Nat × Info)} (hp : f.live p = true)
    (hsplit : ns p = A ++ (a, ⟨some p, v⟩) :: B) :
    (f.kids p).eraseIdx A.length = (A ++ B).map (·.2.data) := by
  rw [R.kids_eq hp, hsplit, List.map_append, List.map_cons,
    List.eraseIdx_append_of_length_le (by simp)]
  simp

theorem Rep.set_eq (R : Rep h f ns) {p a : Nat} {v w : Child} {A B : List (Nat × Info)} (hp : f.live p = true)
    (hsplit : ns p = A ++ (a, ⟨some p, v⟩) :: B) :
    (f.kids p).set A.length w = A.map (·.2.data) ++ w :: B.map (·.2.data) := by
  rw [R.kids_eq hp, hsplit, List.map_append, List.map_cons, List.set_append_right _ _ (by simp)]
  simp

theorem tame_erase (T : Tame f) (p i : Nat) : Tame (f.setKids p ((f.kids p).eraseIdx i)) := by
  have he : ∀ n c, Edge (f.setKids p ((f.kids p).eraseIdx i)) n c → Edge f n c := by
    intro n c e
    rw [edge_setKids] at e
    refine ⟨e.1, ?_⟩
    by_cases hn : n = p
    · have := e.2
      simp only [hn, if_true] at this
      rw [hn]
      exact List.mem_of_mem_eraseIdx this
    · simpa [hn] using e.2
  exact tame_fewer T rfl (fun n hn => hn) he (fun n c e => T.closed n c (he n c e))

/-- After a node was taken out of the list of its parent, no node has it. -/
theorem Rep.no_edge_erase (R : Rep h f ns) {p n a : Nat} {A B : List (Nat × Info)} (hp : f.live p = true)
    (hsplit : ns p = A ++ (a, ⟨some p, .node n⟩) :: B) (q : Nat) :
    ¬ Edge (f.setKids p ((f.kids p).eraseIdx A.length)) q n := by
  intro e
  rw [edge_setKids] at e
  by_cases hq : q = p
  · subst hq
    have := e.2
    simp only [if_true] at this
    rw [R.erase_eq hp hsplit] at this
    obtain ⟨x, hx, hx2⟩ := List.mem_map.mp this
    exact R.only hp hsplit x hx hx2
  · have h1 : Edge f q n := ⟨e.1, by simpa [hq] using e.2⟩
    have h2 : Edge f p n := R.entry_edge (a := a) hp (by rw [hsplit]; simp)
    exact hq (R.single _ _ _ h1 h2)

/-- The node's place. -/
theorem Rep.place (R : Rep h f ns) {p n : Nat} (e : Edge f p n) :
    ∃ A B a, ns p = A ++ (a, ⟨some p, .node n⟩) :: B := by
  obtain ⟨a, ha⟩ := R.edge_entry e
  obtain ⟨A, B, hs⟩ := List.append_of_mem ha
  exact ⟨A, B, a, hs⟩

theorem Rep.deattach (R : Rep h f ns) {p n a : Nat} {A B : List (Nat × Info)}
    (hp : f.live p = true) (hsplit : ns p = A ++ (a, ⟨some p, .node n⟩) :: B) :
    ∃ h', h.nodeDeattach n = some h' ∧
      Rep h' (f.setKids p ((f.kids p).eraseIdx A.length)) (fun m => if m = p then A ++ B else ns m) := by
  have hs := R.seg p hp
  have hnd := R.nodup p hp
  obtain ⟨hd, hn⟩ := R.nodes p hp
  rw [hsplit] at hs hnd hn
  obtain ⟨h', e, C, ha⟩ := unlink_spec hn rfl rfl hs hnd
  obtain ⟨nd, h1, h2⟩ := R.child p a n hp (by rw [hsplit]; simp)
  refine ⟨h', ?_, R.taken_out hp hsplit rfl C ha⟩
  simp only [nodeDeattach, h1, h2, seg_mid hs]
  exact e

theorem inv_removeNode (I : Inv h f) {n : Nat} (hn : f.live n = true) (ha : f.attached n = true) (d : Bool) :
    ∃ h', h.nodeRemove n d = some h' ∧ Inv h' (f.step (.removeNode n d)) := by
  obtain ⟨⟨ns, R⟩, T⟩ := I
  obtain ⟨p, e⟩ := (attached_iff T).mp ha
  obtain ⟨A, B, a, hsplit⟩ := R.place e
  have hp := e.1
  obtain ⟨h1, e1, R1⟩ := R.deattach hp hsplit
  have T1 := tame_erase T p A.length
  have hk : ∀ q, f.live q = true → (f.kids q).filter (· != .node n) =
      (f.setKids p ((f.kids p).eraseIdx A.length)).kids q := by
    intro q hq
    by_cases hqp : q = p
    · subst hqp
      simp only [setKids, if_true]
      rw [R.erase_eq hp hsplit, R.kids_eq hp, hsplit]
      have hA : ∀ e ∈ A ++ B, (e.2.data != Child.node n) = true := by
        intro e he; simpa using R.only hp hsplit e he
      have f1 : ∀ {l : List (Nat × Info)}, (∀ e ∈ l, (e.2.data != Child.node n) = true) →
          (l.map (·.2.data)).filter (· != .node n) = l.map (·.2.data) := by
        intro l hl
        rw [List.filter_eq_self]
        intro c hc
        obtain ⟨e, he, rfl⟩ := List.mem_map.mp hc
        exact hl e he
      rw [List.map_append, List.filter_append, f1 (fun e he => hA e (by simp [he])), List.map_cons,
        List.filter_cons_of_neg (by simp), f1 (fun e he => hA e (by simp [he])), List.map_append]
    · simp only [setKids, hqp, if_false]
      rw [List.filter_eq_self]
      intro c hc
      simp only [bne_iff_ne, ne_eq]
      rintro rfl
      exact hqp (R.single _ _ _ ⟨hq, hc⟩ e)
  let f1 : Forest := { f with kids := fun p => (f.kids p).filter (· != .node n) }
  have R2 : Rep h1 f1 _ := R1.congr (f' := f1) rfl rfl rfl hk
  have T2 : Tame f1 := tame_congr (f' := f1) T1 rfl rfl hk
  cases d with
  | false => exact ⟨h1, by simp [nodeRemove, e1], ⟨_, R2⟩, T2⟩
  | true =>
    have hfree : ∀ q, ¬ Edge f1 q n := by
      rintro q ⟨_, hq⟩
      have := List.mem_filter.mp hq
      simp at this
    obtain ⟨h2, e2, R3, T3⟩ := R2.nodeFree T2 hn hfree
    exact ⟨h2, by simp [nodeRemove, e1, e2], ⟨_, R3⟩, T3⟩

theorem inner_spec {f : Forest} {p i : Nat} (hi : f.inner p i = true) :
    ∃ v, (f.kids p)[i]? = some v ∧ ((∃ n, v = .node n) ∨ (0 < i ∧ i + 1 < (f.kids p).length)) := by
  unfold inner at hi
  cases e : (f.kids p)[i]? with
  | none => rw [e] at hi; cases hi
  | some v =>
    rw [e] at hi
    refine ⟨v, rfl, ?_⟩
    cases v with
    | node n => exact Or.inl ⟨n, rfl⟩
    | text k s => right; simpa using hi

/-- Freeing the item that was taken out. -/
theorem Rep.freeOut (R : Rep h f ns) (T : Tame f) {p a : Nat} {v : Child}
    (ha : h.items a = some ⟨none, none, ⟨some p, v⟩⟩)
    (hlive : ∀ n, v = .node n → f.live n = true ∧ ∀ q, ¬ Edge f q n)
    (hout : ∀ n, f.live n = true → a ∉ (ns n).map Prod.fst) :
    ∃ h', h.itemFree a = some h' ∧ Inv h' (f.killChild (some v)) := by
  cases v with
  | node n =>
    obtain ⟨h1, h2⟩ := hlive n rfl
    obtain ⟨h', e1, e2, e3⟩ := R.nodeFree T h1 h2
    exact ⟨h', by simp [itemFree, itemFreeWith, ha, e1], ⟨_, e2⟩, e3⟩
  | text k s =>
    obtain ⟨h', e1, e2⟩ := R.freeText ha rfl hout
    exact ⟨h', e1, ⟨_, e2⟩, T⟩

theorem inv_removeItem (I : Inv h f) {p i : Nat} (hp : f.live p = true) (hin : f.inner p i = true) (d : Bool) :
    ∃ a h', h.itemAt p i = some a ∧ h.itemRemove a d = some h' ∧ Inv h' (f.step (.removeItem p i d)) := by
  obtain ⟨⟨ns, R⟩, T⟩ := I
  obtain ⟨v, hv, hok⟩ := inner_spec hin
  obtain ⟨A, B, a, hat, hsplit, hlen, _, _⟩ := R.itemAt hp hv
  subst hlen
  have hs := R.seg p hp
  have hnd := R.nodup p hp
  have hlen := R.length_kids hp
  obtain ⟨hd, hn⟩ := R.nodes p hp
  rw [hsplit] at hs hnd hn hlen
  obtain ⟨h1, e1, C, ha⟩ := itemUnlink_spec hn rfl rfl hs hnd rfl (by
    rcases hok with ⟨n, hn⟩ | ⟨h1, h2⟩
    · exact Or.inl ⟨n, hn⟩
    · right
      simp only [List.length_append, List.length_cons] at hlen
      constructor
      · rintro rfl; simp at h1
      · rintro rfl; simp at hlen; omega)
  have R1 := R.taken_out hp hsplit rfl C ha
  have T1 := tame_erase T p A.length
  refine ⟨a, ?_⟩
  cases d with
  | false => exact ⟨h1, hat, by simp [itemRemove, e1], ⟨_, R1⟩, T1⟩
  | true =>
    obtain ⟨h2, e2, I2⟩ := R1.freeOut T1 ha (by
        rintro n rfl
        refine ⟨T.closed p n (R.entry_edge (a := a) hp (by rw [hsplit]; simp)), R.no_edge_erase hp hsplit⟩)
      (by
        intro n hnl hm
        obtain ⟨_, _, n3, n4, _⟩ := nodup_split hnd
        by_cases hnp : n = p
        · simp only [hnp, if_true, List.map_append, List.mem_append] at hm
          rcases hm with hm | hm
          · exact n3 hm
          · exact n4 hm
        · simp only [hnp, if_false] at hm
          exact hnp (R.unique hnl hp hm (by rw [hsplit]; simp)))
    refine ⟨h2, hat, by simp [itemRemove, e1, e2], ?_⟩
    simp only [step, if_true, hv]
    exact I2

theorem inv_replaceItem (I : Inv h f) {p i : Nat} {v : Child} (hp : f.live p = true)
    (hin : f.inner p i = true) (hv : f.mayGo p v = true) (d : Bool) :
    ∃ a h1 b h', h.itemAt p i = some a ∧ h.newRef v = some (h1, b) ∧ h1.itemReplace a b d = some h' ∧
      Inv h' (f.step (.replaceItem p i v d)) := by
  obtain ⟨⟨ns, R0⟩, T⟩ := I
  obtain ⟨u, hu, hok⟩ := inner_spec hin
  obtain ⟨A, B, a, hat, hsplit, hlen, _, _⟩ := R0.itemAt hp hu
  subst hlen
  obtain ⟨h0, b, e0, R, hr, _⟩ := R0.newRef T hv
  obtain ⟨prt, hl⟩ := hr.loose
  have hs := R.seg p hp
  have hnd := R.nodup p hp
  have hlen := R.length_kids hp
  have hout := hr.out p hp
  have hpar : ∀ e ∈ ns p, e.2.parent = some p := fun e he => (R.entry hp (a := e.1) (i := e.2) he).1
  obtain ⟨hd, hn⟩ := R.nodes p hp
  rw [hsplit] at hs hnd hn hlen hout hpar
  obtain ⟨h1, e1, C, ha⟩ := itemRelink_spec hn rfl rfl hs hnd rfl (by
    rcases hok with ⟨n, hn⟩ | ⟨h1, h2⟩
    · exact Or.inl ⟨n, hn⟩
    · right
      simp only [List.length_append, List.length_cons] at hlen
      constructor
      · rintro rfl; simp at h1
      · rintro rfl; simp at hlen; omega) hout hl
  rw [← hsplit] at C
  have hb : a ≠ b := by rintro rfl; exact hout (by simp)
  have R1 : Rep h1 (f.setKids p ((f.kids p).set A.length v))
      (fun m => if m = p then A ++ (b, ⟨some p, v⟩) :: B else ns m) := by
    obtain ⟨n1, n2, n3, n4, n5⟩ := nodup_split hnd
    refine R.relink hp C ?_ ?_ ?_ ?_ ?_ ?_ ?_
    · intro x hx; exact List.mem_append_left _ hx
    · intro x hx
      rcases List.mem_append.mp hx with hx | hx
      · exact Or.inl hx
      · simp at hx; subst hx; exact Or.inr hr.out
    · simp only [List.map_append, List.map_cons, List.nodup_append, List.nodup_cons, List.mem_cons,
        List.mem_append, not_or] at hout ⊢
      refine ⟨n1, ⟨hout.2.2, n2⟩, ?_⟩
      intro x hx y hy e2
      subst e2
      rcases hy with hy | hy
      · subst hy; exact hout.1 hx
      · exact n5 x hx hy
    · rw [R.set_eq hp hsplit]
      have hA := Rep.info_of_parts (p := p) (A := A) (fun e he => hpar e (by simp [he]))
      have hB := Rep.info_of_parts (p := p) (A := B) (fun e he => hpar e (by simp [he]))
      simp only [List.map_append, List.map_cons, ← hA, ← hB]
    · intro x hx
      rcases List.mem_append.mp hx with hx | hx
      · exact R.addr_lt hp hx
      · simp at hx; subst hx; exact hr.lt
    · intro x hx
      simp only [List.mem_append, List.mem_cons] at hx
      rcases hx with hx | hx | hx
      · left; rw [hsplit]; simp [hx]
      · subst hx
        exact Or.inr ⟨hr.out, ⟨_, hl, rfl⟩, fun c hc => hr.held c hc⟩
      · left; rw [hsplit]; simp [hx]
    · intro x c hx hxL hc hcell
      rw [hsplit] at hx
      simp only [List.map_append, List.map_cons, List.mem_append, List.mem_cons,
        List.not_mem_nil, or_false] at hx hxL
      have hxa : x = a := by
        rcases hx with (hx | hx | hx) | hx
        · exact absurd (Or.inl hx) hxL
        · exact hx
        · exact absurd (Or.inr (Or.inr hx)) hxL
        · exact absurd (Or.inr (Or.inl hx)) hxL
      subst hxa
      obtain ⟨cell, k1, k2⟩ := hcell
      rw [seg_mid hs] at k1
      cases k1
      dsimp only at k2
      subst k2
      exact ⟨_, ha⟩
  have T1 : Tame (f.setKids p ((f.kids p).set A.length v)) := by
    apply tame_setKids T hv
    intro c hc
    rcases List.mem_or_eq_of_mem_set hc with hc | hc
    · exact Or.inl hc
    · exact Or.inr hc
  refine ⟨a, h0, b, ?_⟩
  cases d with
  | false => exact ⟨h1, hat, e0, by simp [itemReplace, e1], ⟨_, R1⟩, T1⟩
  | true =>
    obtain ⟨h2, e2, I2⟩ := R1.freeOut T1 ha (by
        rintro n rfl
        have ed : Edge f p n := R.entry_edge (a := a) hp (by rw [hsplit]; simp)
        refine ⟨T.closed p n ed, ?_⟩
        intro q e
        rw [edge_setKids] at e
        by_cases hq : q = p
        · subst hq
          have := e.2
          simp only [if_true] at this
          rw [R.set_eq hp hsplit] at this
          rcases List.mem_append.mp this with hm | hm
          · obtain ⟨x, hx, hx2⟩ := List.mem_map.mp hm
            exact R.only hp hsplit x (by simp [hx]) hx2
          · rcases List.mem_cons.mp hm with hm | hm
            · subst hm
              exact (Rep.mayGo_node T hv).2.1 _ ed
            · obtain ⟨x, hx, hx2⟩ := List.mem_map.mp hm
              exact R.only hp hsplit x (by simp [hx]) hx2
        · exact hq (R.single _ _ _ ⟨e.1, by simpa [hq] using e.2⟩ ed))
      (by
        intro n hnl hm
        obtain ⟨_, _, n3, n4, _⟩ := nodup_split hnd
        by_cases hnp : n = p
        · simp only [hnp, if_true, List.map_append, List.map_cons, List.mem_append, List.mem_cons] at hm
          rcases hm with hm | hm | hm
          · exact n3 hm
          · exact hb hm
          · exact n4 hm
        · simp only [hnp, if_false] at hm
          exact hnp (R.unique hnl hp hm (by rw [hsplit]; simp)))
    refine ⟨h2, hat, e0, by simp [itemReplace, e1, e2], ?_⟩
    simp only [step, if_true, hu]
    exact I2

theorem inv_free (I : Inv h f) {n : Nat} (hn : f.live n = true) (ha : f.attached n = false) :
    ∃ h', h.nodeFree n = some h' ∧ Inv h' (f.kill n) := by
  obtain ⟨⟨ns, R⟩, T⟩ := I
  obtain ⟨h', e1, e2, e3⟩ := R.nodeFree T hn (fun p e => by
    rw [(attached_iff T).mpr ⟨p, e⟩] at ha; cases ha)
  exact ⟨h', e1, ⟨_, e2⟩, e3⟩

/-! ### Exchanging nodes -/

theorem seg_put_data {m : Mem Info} {A B : List (Nat × Info)} {a : Nat} {x y : Info} {p n : Option Nat}
    (hs : Seg m p (A ++ (a, x) :: B) n) (hnd : ((A ++ (a, x) :: B).map Prod.fst).Nodup) :
    Seg (m.put a ⟨lastAddr A p, headAddr B n, y⟩) p (A ++ (a, y) :: B) n := by
  obtain ⟨_, _, n3, n4, _⟩ := nodup_split hnd
  rw [seg_append] at hs ⊢
  refine ⟨seg_put_of_notMem n3 (by simpa using hs.1), ?_, seg_put_of_notMem n4 hs.2.2⟩
  simp [Mem.put_self]

theorem headAddr_swap (A B : List (Nat × Info)) (a : Nat) (x y : Info) :
    headAddr (A ++ (a, x) :: B) none = headAddr (A ++ (a, y) :: B) none := by
  simp [headAddr_append]

theorem lastAddr_swap (A B : List (Nat × Info)) (a : Nat) (x y : Info) :
    lastAddr (A ++ (a, x) :: B) none = lastAddr (A ++ (a, y) :: B) none := by
  simp [lastAddr_append]

theorem Rep.nodeSwap (R : Rep h f ns) {p n a m : Nat} {A B : List (Nat × Info)}
    (hp : f.live p = true) (hsplit : ns p = A ++ (a, ⟨some p, .node n⟩) :: B) (hn : f.live n = true)
    (hm : f.live m = true) (hfree : ∀ q, ¬ Edge f q m) :
    ∃ h', h.nodeSwap n m = some h' ∧
      Rep h' (f.setKids p ((f.kids p).set A.length (.node m)))
        (fun q => if q = p then A ++ (a, ⟨some p, .node m⟩) :: B else ns q) := by
  have hs := R.seg p hp
  have hnd := R.nodup p hp
  have hpar : ∀ e ∈ ns p, e.2.parent = some p := fun e he => (R.entry hp (a := e.1) (i := e.2) he).1
  rw [hsplit] at hs hnd hpar
  have hmem : (a, (⟨some p, .node n⟩ : Info)) ∈ ns p := by rw [hsplit]; simp
  have hnm : n ≠ m := by rintro rfl; exact hfree p (R.entry_edge hp hmem)
  obtain ⟨nd, hnd1, hnd2⟩ := R.child p a n hp hmem
  obtain ⟨hdm, hm1⟩ := R.nodes m hm
  have hcell := seg_mid hs
  refine ⟨(({ h with items := h.items.put a ⟨lastAddr A none, headAddr B none, ⟨some p, .node m⟩⟩ } : Heap).putNode n
      { nd with holder := none }).putNode m
        { (⟨f.name m, headAddr (ns m) none, lastAddr (ns m) none, hdm⟩ : NodeC) with holder := some a }, ?_, ?_⟩
  · simp only [Heap.nodeSwap, hnd1, hnd2, hcell, Option.bind_eq_bind]
    rw [setData_of hcell]
    simp only [Option.bind_some]
    rw [setHolder_of (c := nd) (by exact hnd1)]
    simp only [Option.bind_some]
    rw [setHolder_of (c := ⟨f.name m, headAddr (ns m) none, lastAddr (ns m) none, hdm⟩)
      (by rw [putNode_ne _ _ (Ne.symm hnm)]; exact hm1)]
  · -- holders
    have hnodes : ∀ q, q ≠ n → q ≠ m →
        ((({ h with items := h.items.put a ⟨lastAddr A none, headAddr B none, ⟨some p, .node m⟩⟩ } : Heap).putNode n
      { nd with holder := none }).putNode m
        { (⟨f.name m, headAddr (ns m) none, lastAddr (ns m) none, hdm⟩ : NodeC) with holder := some a }).nodes q =
          h.nodes q := by
      intro q h1 h2
      rw [putNode_ne _ _ h2, putNode_ne _ _ h1]
    have hhd : ∀ q, headAddr (if q = p then A ++ (a, (⟨some p, .node m⟩ : Info)) :: B else ns q) none =
        headAddr (ns q) none := by
      intro q
      split
      · rename_i e; rw [e, hsplit]; exact headAddr_swap _ _ _ _ _
      · rfl
    have hla : ∀ q, lastAddr (if q = p then A ++ (a, (⟨some p, .node m⟩ : Info)) :: B else ns q) none =
        lastAddr (ns q) none := by
      intro q
      split
      · rename_i e; rw [e, hsplit]; exact lastAddr_swap _ _ _ _ _
      · rfl
    have hother : ∀ q, f.live q = true → q ≠ p → a ∉ (ns q).map Prod.fst := by
      intro q hq hqp ham
      exact hqp (R.unique hq hp ham (entry_mem hmem))
    constructor
    · exact R.next
    · intro q hq
      change f.live q = true at hq
      dsimp only
      rw [hhd q, hla q]
      by_cases h2 : q = m
      · subst h2; exact ⟨some a, by simp [setKids]⟩
      · by_cases h1 : q = n
        · subst h1
          obtain ⟨hd', k⟩ := R.nodes q hq
          rw [hnd1] at k; cases k
          exact ⟨none, by rw [putNode_ne _ _ h2]; simp [setKids]⟩
        · rw [hnodes q h1 h2]
          exact R.nodes q hq
    · intro q hq
      change f.live q = false at hq
      rw [hnodes q (by rintro rfl; rw [hn] at hq; cases hq) (by rintro rfl; rw [hm] at hq; cases hq)]
      exact R.dead q hq
    · intro q hq
      change f.live q = true at hq
      by_cases hqp : q = p
      · subst hqp
        simp only [if_true, putNode_items]
        exact seg_put_data hs hnd
      · simp only [hqp, if_false, putNode_items]
        exact seg_put_of_notMem (hother q hq hqp) (R.seg q hq)
    · intro q hq
      change f.live q = true at hq
      by_cases hqp : q = p
      · subst hqp
        simpa using hnd
      · simp only [hqp, if_false]; exact R.nodup q hq
    · intro q hq
      change f.live q = true at hq
      by_cases hqp : q = p
      · subst hqp
        simp only [if_true, setKids]
        rw [R.set_eq hp hsplit]
        have hA := Rep.info_of_parts (p := q) (A := A) (fun e he => hpar e (by simp [he]))
        have hB := Rep.info_of_parts (p := q) (A := B) (fun e he => hpar e (by simp [he]))
        simp only [List.map_append, List.map_cons, ← hA, ← hB]
      · simp only [hqp, if_false, setKids]; exact R.info q hq
    · intro q b c hq hb
      change f.live q = true at hq
      have hcases : (b = a ∧ c = m) ∨ ((b, (⟨some q, .node c⟩ : Info)) ∈ ns q ∧ c ≠ n) := by
        by_cases hqp : q = p
        · subst hqp
          simp only [if_true] at hb
          have h5 : (b, (⟨some q, .node c⟩ : Info)) ∈ A ++ B → (b, (⟨some q, .node c⟩ : Info)) ∈ ns q ∧ c ≠ n := by
            intro h5
            refine ⟨?_, ?_⟩
            · rw [hsplit]; rcases List.mem_append.mp h5 with h5 | h5 <;> simp [h5]
            · rintro rfl; exact R.only hp hsplit _ h5 rfl
          rcases List.mem_append.mp hb with hb | hb
          · exact Or.inr (h5 (by simp [hb]))
          · rcases List.mem_cons.mp hb with hb | hb
            · cases hb; exact Or.inl ⟨rfl, rfl⟩
            · exact Or.inr (h5 (by simp [hb]))
        · simp only [hqp, if_false] at hb
          refine Or.inr ⟨hb, ?_⟩
          rintro rfl
          exact hqp (R.single _ _ _ (R.entry_edge hq hb) (R.entry_edge hp hmem))
      rcases hcases with ⟨rfl, rfl⟩ | ⟨hb9, hcn⟩
      · exact ⟨_, putNode_self _ _ _, rfl⟩
      · have hcm : c ≠ m := by
          intro e; subst e; exact hfree q (R.entry_edge hq hb9)
        obtain ⟨nd', k1, k2⟩ := R.child q b c hq hb9
        exact ⟨nd', by rw [hnodes c hcn hcm]; exact k1, k2⟩
    · intro c nd' b hc hnd' hb
      change f.live c = true at hc
      by_cases hcm : c = m
      · subst hcm
        rw [putNode_self] at hnd'; cases hnd'
        cases hb
        exact ⟨_, Mem.put_self _ _ _, rfl, Or.inl ⟨p, hp, by simp⟩⟩
      · by_cases hcn : c = n
        · subst hcn
          rw [putNode_ne _ _ hcm, putNode_self] at hnd'; cases hnd'
          cases hb
        · rw [hnodes c hcn hcm] at hnd'
          obtain ⟨cell, k1, k2, k3⟩ := R.holder c nd' b hc hnd' hb
          have hba : b ≠ a := by
            rintro rfl
            rw [hcell] at k1; cases k1
            cases k2
            exact hcn rfl
          refine ⟨cell, by rw [putNode_items, putNode_items]; exact (Mem.put_ne _ _ hba).trans k1, k2, ?_⟩
          rcases k3 with ⟨q, hq, hbm⟩ | k3
          · refine Or.inl ⟨q, hq, ?_⟩
            by_cases hqp : q = p
            · subst hqp
              rw [hsplit] at hbm
              simpa using hbm
            · simpa [hqp] using hbm
          · exact Or.inr k3
    · intro b hb
      have hba : b ≠ a := by
        rintro rfl
        have := R.addr_lt hp (entry_mem hmem)
        exact absurd hb (by simpa using this)
      rw [putNode_items, putNode_items]
      exact (Mem.put_ne _ _ hba).trans (R.fresh b hb)

theorem inv_replaceNode (I : Inv h f) {n m : Nat} (hn : f.live n = true) (ha : f.attached n = true)
    (hm : ((List.range f.next).all fun p =>
        !(f.live p && (nodesOf (f.kids p)).contains n) || f.mayGo p (.node m)) = true) (d : Bool) :
    ∃ h', h.nodeReplace n m d = some h' ∧ Inv h' (f.step (.replaceNode n m d)) := by
  obtain ⟨⟨ns, R⟩, T⟩ := I
  obtain ⟨p, e⟩ := (attached_iff T).mp ha
  obtain ⟨A, B, a, hsplit⟩ := R.place e
  have hp := e.1
  have hgo : f.mayGo p (.node m) = true := by
    rw [List.all_eq_true] at hm
    have := hm p (List.mem_range.mpr (T.bound p hp))
    have hc : (nodesOf (f.kids p)).contains n = true := by
      rw [List.contains_iff_mem, mem_nodesOf]; exact e.2
    simpa only [hp, hc, Bool.and_self, Bool.not_true, Bool.false_or] using this
  obtain ⟨hml, hfree, hnr⟩ := Rep.mayGo_node T hgo
  obtain ⟨h1, e1, R1⟩ := R.nodeSwap hp hsplit hn hml hfree
  have hnm : n ≠ m := by rintro rfl; exact hfree p e
  have T1 : Tame (f.setKids p ((f.kids p).set A.length (.node m))) := by
    apply tame_setKids T hgo
    intro c hc
    rcases List.mem_or_eq_of_mem_set hc with hc | hc
    · exact Or.inl hc
    · exact Or.inr hc
  have hk : ∀ q, f.live q = true → ((f.kids q).map fun c => if c = .node n then .node m else c) =
      (f.setKids p ((f.kids p).set A.length (.node m))).kids q := by
    have f1 : ∀ {l : List Child}, (∀ c ∈ l, c ≠ Child.node n) →
        (l.map fun c => if c = .node n then .node m else c) = l := by
      intro l hl
      conv => rhs; rw [← List.map_id l]
      apply List.map_congr_left
      intro c hc
      simp [hl c hc]
    intro q hq
    by_cases hqp : q = p
    · subst hqp
      simp only [setKids, if_true]
      rw [R.set_eq hp hsplit, R.kids_eq hp, hsplit]
      have hA := R.only hp hsplit
      rw [List.map_append, List.map_append, f1, List.map_cons, List.map_cons, f1]
      · simp
      · intro c hc
        obtain ⟨x, hx, rfl⟩ := List.mem_map.mp hc
        exact hA x (by simp [hx])
      · intro c hc
        obtain ⟨x, hx, rfl⟩ := List.mem_map.mp hc
        exact hA x (by simp [hx])
    · simp only [setKids, hqp, if_false]
      apply f1
      rintro c hc rfl
      exact hqp (R.single _ _ _ ⟨hq, hc⟩ e)
  let f1 : Forest := { f with kids := fun p => (f.kids p).map fun c => if c = .node n then .node m else c }
  have R2 : Rep h1 f1 _ := R1.congr (f' := f1) rfl rfl rfl hk
  have T2 : Tame f1 := tame_congr (f' := f1) T1 rfl rfl hk
  cases d with
  | false => exact ⟨h1, by simp [nodeReplace, e1], ⟨_, R2⟩, T2⟩
  | true =>
    have hfree : ∀ q, ¬ Edge f1 q n := by
      rintro q ⟨_, hq⟩
      obtain ⟨c, _, hc⟩ := List.mem_map.mp hq
      split at hc
      · cases hc; exact hnm rfl
      · rename_i h5; exact h5 hc
    obtain ⟨h2, e2, R3, T3⟩ := R2.nodeFree T2 hn hfree
    exact ⟨h2, by simp [nodeReplace, e1, e2], ⟨_, R3⟩, T3⟩

end Axl.Heap
