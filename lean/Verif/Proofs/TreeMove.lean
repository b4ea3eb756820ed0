/-
Moving all the children of a node, and removing all its content.
-/
import Verif.Proofs.TreeCopy

namespace Axl.Heap
open Spec.Tree Spec.Tree.Forest

variable {h : Heap} {f : Forest} {ns : Nat → List (Nat × Info)}

/-- The entries with their parent changed. -/
def adopted (q : Nat) (S : List (Nat × Info)) : List (Nat × Info) :=
  S.map fun e => (e.1, ⟨some q, e.2.data⟩)

theorem adopted_fst (q : Nat) (S : List (Nat × Info)) : (adopted q S).map Prod.fst = S.map Prod.fst := by
  simp [adopted, List.map_map, Function.comp_def]

/-- Adding at the end of a chain an item that may still be linked elsewhere. -/
theorem setChildRef_chain {h : Heap} {p : Nat} {nd : NodeC} {L : List (Nat × Info)} {a : Nat}
    {pv nx e prt : Option Nat} {v : Child} (hL : L ≠ [])
    (hn : h.nodes p = some nd) (hf : nd.first = headAddr L none) (hl : nd.last = lastAddr L none)
    (hs : Seg h.items none L e) (hnd : (L.map Prod.fst).Nodup) (ha : a ∉ L.map Prod.fst)
    (hc : h.items a = some ⟨pv, nx, ⟨prt, v⟩⟩) :
    ∃ h', h.setChildRef p a = some h' ∧
      Relinked h h' p (L ++ [(a, ⟨some p, v⟩)]) (L.map Prod.fst ++ [a]) := by
  unfold setChildRef
  rw [setParent_of hc]
  simp only [Option.bind_eq_bind, Option.bind_some, hn, hf]
  obtain ⟨b0, eL⟩ : ∃ l, headAddr L none = some l := by
    cases e : headAddr L none with
    | none => exact absurd ((headAddr_eq_none L).mp e) hL
    | some l => exact ⟨l, rfl⟩
  obtain ⟨l, hlast⟩ : ∃ l, lastAddr L none = some l := by
    cases e : lastAddr L none with
    | none => exact absurd ((lastAddr_eq_none L).mp e) hL
    | some l => exact ⟨l, rfl⟩
  rw [eL]
  dsimp only
  rw [hl, hlast]
  dsimp only
  have hs1 : Seg (h.items.put a ⟨pv, nx, ⟨some p, v⟩⟩) none L e := seg_put_of_notMem ha hs
  obtain ⟨m', e1, s1, f1⟩ := seg_redirect_last hs1 hnd (some a) hlast
  have e1' : ({ h with items := h.items.put a ⟨pv, nx, ⟨some p, v⟩⟩ } : Heap).setNext l (some a) =
      some { h with items := m' } := by simp [setNext, e1]
  rw [e1']
  simp only [Option.bind_some]
  have hla : a ≠ l := fun e => ha (e ▸ lastAddr_mem hlast)
  have hca : m' a = some ⟨pv, nx, ⟨some p, v⟩⟩ := by
    rw [f1 a hla, Mem.put_self]
  rw [setPrev_of (h := { h with items := m' }) hca]
  simp only [Option.bind_some]
  rw [setNext_of (Mem.put_self _ _ _)]
  simp only [Option.bind_some, Mem.put_put]
  rw [setLast_of (c := nd) (by exact hn)]
  refine ⟨_, rfl, ?_⟩
  constructor
  · intro nd' hnd'
    rw [hn] at hnd'; cases hnd'
    rw [putNode_self, lastAddr_concat, headAddr_append]
    cases L with
    | nil => exact absurd rfl hL
    | cons e t => rw [hf]; rfl
  · intro n hne; simp [putNode, hne]
  · simp only [putNode_items]
    rw [seg_append]
    refine ⟨seg_put_of_notMem ha s1, ?_⟩
    simp [Seg, Mem.put_self, hlast]
  · intro b hb
    simp only [List.mem_append, List.mem_singleton, not_or] at hb
    simp only [putNode_items]
    rw [Mem.put_ne _ _ hb.2, f1 b (fun e => hb.1 (e ▸ lastAddr_mem hlast)), Mem.put_ne _ _ hb.2]
  · rfl
  · rfl

theorem transferLoop_chain {q : Nat} : ∀ (S M : List (Nat × Info)) (k : Nat) (h : Heap) (nd : NodeC)
    (e pv : Option Nat), M ≠ [] → S.length ≤ k → h.nodes q = some nd →
    nd.first = headAddr M none → nd.last = lastAddr M none →
    Seg h.items none M e → Seg h.items pv S none → ((M ++ S).map Prod.fst).Nodup → (S = [] → e = none) →
    ∃ h', transferLoop q k h (headAddr S none) = some h' ∧
      Relinked h h' q (M ++ adopted q S) ((M ++ S).map Prod.fst) := by
  intro S
  induction S with
  | nil =>
    intro M k h nd e pv hM _ hn hf hl hs _ _ he
    refine ⟨h, by cases k <;> rfl, ?_⟩
    have : e = none := he rfl
    subst this
    simp only [adopted, List.map_nil, List.append_nil]
    constructor
    · intro nd' hnd'
      rw [hn] at hnd'; cases hnd'
      rw [hn, ← hf, ← hl]
    · intros; rfl
    · exact hs
    · intros; rfl
    · rfl
    · rfl
  | cons x S ih =>
    obtain ⟨a, i⟩ := x
    intro M k h nd e pv hM hk hn hf hl hs hS hnd _
    cases k with
    | zero => simp at hk
    | succ k =>
    obtain ⟨ndM, ndS, haM, haS, dis⟩ := nodup_split hnd
    have hcell : h.items a = some ⟨pv, headAddr S none, i⟩ := hS.1
    obtain ⟨h1, e1, C⟩ := setChildRef_chain (v := i.data) (prt := i.parent) hM hn hf hl hs ndM haM hcell
    obtain ⟨h2, e2, C2⟩ := ih (M ++ [(a, ⟨some q, i.data⟩)]) k h1 _ none (some a) (by simp) (by simpa using hk)
      (C.nodes nd hn) rfl rfl C.seg
      (seg_frame (fun b hb => C.frame b (by
        simp only [List.mem_append, List.mem_singleton, not_or]
        exact ⟨fun hbM => dis b hbM hb, fun e => haS (e ▸ hb)⟩)) hS.2)
      (by
        have : ((M ++ [(a, (⟨some q, i.data⟩ : Info))]) ++ S).map Prod.fst = (M ++ (a, i) :: S).map Prod.fst := by simp
        rw [this]; exact hnd)
      (fun _ => rfl)
    refine ⟨h2, ?_, ?_⟩
    · show transferLoop q (k + 1) h (some a) = _
      simp only [transferLoop, hcell, e1]
      exact e2
    · have hL : M ++ adopted q ((a, i) :: S) = (M ++ [(a, ⟨some q, i.data⟩)]) ++ adopted q S := by
        simp [adopted]
      rw [hL]
      constructor
      · intro nd' hnd'
        rw [hn] at hnd'; cases hnd'
        rw [C2.nodes _ (C.nodes nd hn)]
      · intro n hne; rw [C2.others n hne, C.others n hne]
      · exact C2.seg
      · intro b hb
        rw [C2.frame b (by intro hx; apply hb; simp at hx ⊢; grind), C.frame b (by intro hx; apply hb; simp at hx ⊢; grind)]
      · rw [C2.nextItem, C.nextItem]
      · rw [C2.nextNode, C.nextNode]

theorem transferLoop_spec {h : Heap} {q : Nat} {nd : NodeC} {M S : List (Nat × Info)} {k : Nat}
    (hk : S.length ≤ k) (hn : h.nodes q = some nd)
    (hf : nd.first = headAddr M none) (hl : nd.last = lastAddr M none)
    (hs : Seg h.items none M none) (hS : Seg h.items none S none)
    (hnd : ((M ++ S).map Prod.fst).Nodup) :
    ∃ h', transferLoop q k h (headAddr S none) = some h' ∧
      Relinked h h' q (M ++ adopted q S) ((M ++ S).map Prod.fst) := by
  by_cases hM : M = []
  · subst hM
    cases S with
    | nil =>
      refine ⟨h, by cases k <;> rfl, ?_⟩
      constructor
      · intro nd' hnd'
        rw [hn] at hnd'; cases hnd'
        rw [hn]
        obtain ⟨a, b, c, d⟩ := nd
        simp at hf hl
        simp [adopted, hf, hl]
      · intros; rfl
      · exact hs
      · intros; rfl
      · rfl
      · rfl
    | cons x S =>
      obtain ⟨a, i⟩ := x
      cases k with
      | zero => simp at hk
      | succ k =>
      obtain ⟨_, ndS, _, haS, _⟩ := nodup_split (A := []) hnd
      have hcell : h.items a = some ⟨none, headAddr S none, i⟩ := hS.1
      let h1 : Heap := ({ h with items := h.items.put a ⟨none, headAddr S none, ⟨some q, i.data⟩⟩ } : Heap).putNode q
        { nd with first := some a, last := some a }
      have e1 : h.setChildRef q a = some h1 := by
        unfold setChildRef
        rw [setParent_of hcell]
        simp only [Option.bind_eq_bind, Option.bind_some, hn, hf, headAddr_nil]
        rw [setFirst_of (c := nd) (by exact hn)]
        simp only [Option.bind_some]
        rw [setLast_of (putNode_self _ _ _)]
        simp [h1]
      obtain ⟨h2, e2, C2⟩ := transferLoop_chain (q := q) S [(a, ⟨some q, i.data⟩)] k h1 _ (headAddr S none) (some a)
        (by simp) (by simpa using hk) (putNode_self _ _ _) rfl rfl
        (by simp [h1, Seg, Mem.put_self])
        (seg_frame (fun b hb => by
          simp only [h1, putNode_items]
          exact Mem.put_ne _ _ (fun e => haS (e ▸ hb))) hS.2)
        (by simpa using hnd)
        (fun e => by rw [e]; rfl)
      refine ⟨h2, ?_, ?_⟩
      · show transferLoop q (k + 1) h (some a) = _
        simp only [transferLoop, hcell, e1]
        exact e2
      · have hL : [] ++ adopted q ((a, i) :: S) = [(a, ⟨some q, i.data⟩)] ++ adopted q S := by
          simp [adopted]
        rw [hL]
        constructor
        · intro nd' hnd'
          rw [hn] at hnd'; cases hnd'
          rw [C2.nodes _ (putNode_self _ _ _)]
        · intro n hne; rw [C2.others n hne, putNode_ne _ _ hne]
        · exact C2.seg
        · intro b hb
          have hba : b ≠ a := by rintro rfl; exact hb (by simp)
          rw [C2.frame b (by intro hx; apply hb; simp at hx ⊢; exact hx)]
          simp only [h1, putNode_items]
          exact Mem.put_ne _ _ hba
        · rw [C2.nextItem]; rfl
        · rw [C2.nextNode]; rfl
  · exact transferLoop_chain S M k h nd none none hM hk hn hf hl hs hS hnd (fun _ => rfl)

/-- All the items of `p` are now among those of `q`. -/
theorem Rep.moved (R : Rep h f ns) {h' : Heap} {p q : Nat} (hp : f.live p = true) (hq : f.live q = true)
    (hpq : p ≠ q) {L : List (Nat × Info)} {l : List Child}
    (np : ∀ nd, h.nodes p = some nd → h'.nodes p = some { nd with first := none, last := none })
    (nq : ∀ nd, h.nodes q = some nd →
      h'.nodes q = some { nd with first := headAddr L none, last := lastAddr L none })
    (nr : ∀ r, r ≠ p → r ≠ q → h'.nodes r = h.nodes r)
    (seg : Seg h'.items none L none)
    (frame : ∀ b, b ∉ (ns p).map Prod.fst → b ∉ (ns q).map Prod.fst → h'.items b = h.items b)
    (nextItem : h'.nextItem = h.nextItem) (nextNode : h'.nextNode = h.nextNode)
    (hnd : (L.map Prod.fst).Nodup)
    (hinfo : L.map Prod.snd = l.map fun v => ⟨some q, v⟩)
    (haddr : ∀ b, b ∈ L.map Prod.fst ↔ b ∈ (ns q).map Prod.fst ∨ b ∈ (ns p).map Prod.fst)
    (hdata : ∀ e ∈ L, ∃ cell, h.items e.1 = some cell ∧ cell.data.data = e.2.data) :
    Rep h' ((f.setKids q l).setKids p []) (fun r => if r = p then [] else if r = q then L else ns r) := by
  have hqp : q ≠ p := fun e => hpq e.symm
  have hhold : ∀ c nd, h.nodes c = some nd → ∃ nd', h'.nodes c = some nd' ∧ nd'.holder = nd.holder := by
    intro c nd hc
    by_cases h1 : c = p
    · subst h1; exact ⟨_, np _ hc, rfl⟩
    · by_cases h2 : c = q
      · subst h2; exact ⟨_, nq _ hc, rfl⟩
      · exact ⟨nd, by rw [nr c h1 h2]; exact hc, rfl⟩
  have hhold2 : ∀ c nd', f.live c = true → h'.nodes c = some nd' →
      ∃ nd, h.nodes c = some nd ∧ nd.holder = nd'.holder := by
    intro c nd' hl hc
    obtain ⟨hd, h1⟩ := R.nodes c hl
    obtain ⟨nd2, h2, h3⟩ := hhold c _ h1
    rw [hc] at h2; cases h2
    exact ⟨_, h1, h3.symm⟩
  constructor
  · rw [nextNode]; exact R.next
  · intro r hr
    change f.live r = true at hr
    obtain ⟨hd, h1⟩ := R.nodes r hr
    refine ⟨hd, ?_⟩
    by_cases h2 : r = p
    · subst h2
      rw [np _ h1]; simp [setKids]
    · by_cases h3 : r = q
      · subst h3
        rw [nq _ h1]; simp [setKids, h2]
      · rw [nr r h2 h3, h1]; simp [setKids, h2, h3]
  · intro r hr
    change f.live r = false at hr
    rw [nr r (by rintro rfl; rw [hp] at hr; cases hr) (by rintro rfl; rw [hq] at hr; cases hr)]
    exact R.dead r hr
  · intro r hr
    change f.live r = true at hr
    by_cases h2 : r = p
    · simp [h2, Seg]
    · by_cases h3 : r = q
      · simp only [h3, hqp, if_false, if_true]; exact seg
      · simp only [h2, h3, if_false]
        refine seg_frame (fun b hb => frame b ?_ ?_) (R.seg r hr)
        · intro hx; exact h2 (R.unique hr hp hb hx)
        · intro hx; exact h3 (R.unique hr hq hb hx)
  · intro r hr
    change f.live r = true at hr
    by_cases h2 : r = p
    · simp [h2]
    · by_cases h3 : r = q
      · simp only [h3, hqp, if_false, if_true]; exact hnd
      · simp only [h2, h3, if_false]; exact R.nodup r hr
  · intro r hr
    change f.live r = true at hr
    by_cases h2 : r = p
    · simp [h2, setKids]
    · by_cases h3 : r = q
      · simp only [h3, hqp, if_false, if_true, setKids]; exact hinfo
      · simp only [h2, h3, if_false, setKids]; exact R.info r hr
  · intro r a c hr ha
    change f.live r = true at hr
    have : ∃ nd, h.nodes c = some nd ∧ nd.holder = some a := by
      by_cases h2 : r = p
      · simp [h2] at ha
      · by_cases h3 : r = q
        · simp only [h3, hqp, if_false, if_true] at ha
          obtain ⟨cell, k1, k2⟩ := hdata _ ha
          dsimp only at k1 k2
          rcases (haddr a).mp (entry_mem ha) with hm | hm
          · have he := R.entry_of_cell hq hm k1
            have hx := (R.entry hq he).1
            have : cell.data = ⟨some q, .node c⟩ := by
              cases hcd : cell.data
              rw [hcd] at hx k2
              simp at hx k2
              simp [hx, k2]
            rw [this] at he
            exact R.child q a c hq he
          · have he := R.entry_of_cell hp hm k1
            have hx := (R.entry hp he).1
            have : cell.data = ⟨some p, .node c⟩ := by
              cases hcd : cell.data
              rw [hcd] at hx k2
              simp at hx k2
              simp [hx, k2]
            rw [this] at he
            exact R.child p a c hp he
        · simp only [h2, h3, if_false] at ha
          exact R.child r a c hr ha
    obtain ⟨nd, k1, k2⟩ := this
    obtain ⟨nd', j1, j2⟩ := hhold c nd k1
    exact ⟨nd', j1, j2.trans k2⟩
  · intro c nd' a hc hnd' ha
    change f.live c = true at hc
    obtain ⟨nd, k1, k2⟩ := hhold2 c nd' hc hnd'
    rw [← k2] at ha
    obtain ⟨cell, j1, j2, j3⟩ := R.holder c nd a hc k1 ha
    by_cases haL : a ∈ L.map Prod.fst
    · obtain ⟨i, hi⟩ := exists_entry haL
      obtain ⟨c', hc', hci⟩ := seg_entry seg hi
      obtain ⟨cell2, x1, x2⟩ := hdata _ hi
      dsimp only at x1 x2
      rw [j1] at x1; cases x1
      refine ⟨c', hc', by rw [hci, ← x2]; exact j2, Or.inl ⟨q, hq, ?_⟩⟩
      simp only [hqp, if_false, if_true]; exact haL
    · have hx := haL
      rw [haddr, not_or] at hx
      refine ⟨cell, by rw [frame a hx.2 hx.1]; exact j1, j2, ?_⟩
      rcases j3 with ⟨n, hn, hm⟩ | j3
      · have h2 : n ≠ p := by rintro rfl; exact hx.2 hm
        have h3 : n ≠ q := by rintro rfl; exact hx.1 hm
        exact Or.inl ⟨n, hn, by simpa [h2, h3] using hm⟩
      · exact Or.inr j3
  · intro a ha
    rw [nextItem] at ha
    rw [frame a (fun hx => by have := R.addr_lt hp hx; omega) (fun hx => by have := R.addr_lt hq hx; omega)]
    exact R.fresh a ha

theorem tame_moved (T : Tame f) {p q : Nat} (hp : f.live p = true) (hpq : ¬ Reach f p q)
    {l : List Child} (hl : ∀ c, c ∈ l → c ∈ f.kids q ∨ c ∈ f.kids p) :
    Tame ((f.setKids q l).setKids p []) := by
  refine tame_more T rfl (fun _ => rfl) p hp ?_
  rintro n c ⟨e1, e2⟩
  change f.live n = true at e1
  simp only [setKids] at e2
  by_cases h1 : n = p
  · simp [h1] at e2
  · by_cases h2 : n = q
    · subst h2
      simp only [h1, if_false, if_true] at e2
      rcases hl _ e2 with h3 | h3
      · exact Or.inl ⟨e1, h3⟩
      · exact Or.inr ⟨hpq, .tail .refl ⟨hp, h3⟩⟩
    · simp only [h1, h2, if_false] at e2
      exact Or.inl ⟨e1, e2⟩

theorem Rep.apart (R : Rep h f ns) {p q : Nat} (hp : f.live p = true) (hq : f.live q = true)
    (hpq : p ≠ q) : ∀ b ∈ (ns q).map Prod.fst, b ∉ (ns p).map Prod.fst :=
  fun _ hb hx => hpq (R.unique hp hq hx hb)

theorem Rep.nodup_both (R : Rep h f ns) {p q : Nat} (hp : f.live p = true) (hq : f.live q = true)
    (hpq : p ≠ q) : ((ns q ++ ns p).map Prod.fst).Nodup := by
  rw [List.map_append, List.nodup_append]
  exact ⟨R.nodup q hq, R.nodup p hp, fun x hx y hy e => R.apart hp hq hpq x hx (e ▸ hy)⟩

theorem adopted_info (q : Nat) (S : List (Nat × Info)) :
    (adopted q S).map Prod.snd = (S.map (·.2.data)).map fun v => ⟨some q, v⟩ := by
  simp [adopted, List.map_map, Function.comp_def]

theorem Rep.data_of (R : Rep h f ns) {n : Nat} (hn : f.live n = true) {e : Nat × Info} (he : e ∈ ns n) :
    ∃ cell, h.items e.1 = some cell ∧ cell.data.data = e.2.data := by
  obtain ⟨c, h1, h2⟩ := seg_entry (R.seg n hn) (a := e.1) (i := e.2) he
  exact ⟨c, h1, by rw [h2]⟩

theorem inv_transfer (I : Inv h f) {p q : Nat} (hp : f.live p = true) (hq : f.live q = true)
    (hpq : f.below p q = false) :
    ∃ h', h.transferChilds p q = some h' ∧ Inv h' (f.step (.transfer p q)) := by
  obtain ⟨⟨ns, R⟩, T⟩ := I
  have hr : ¬ Reach f p q := fun hr => by rw [(below_iff T hp).mpr hr] at hpq; cases hpq
  have hne : p ≠ q := by rintro rfl; exact hr .refl
  obtain ⟨hdp, hnp⟩ := R.nodes p hp
  obtain ⟨hdq, hnq⟩ := R.nodes q hq
  obtain ⟨h1, e1, C⟩ := transferLoop_spec (k := h.nextItem) (R.length_le hp) hnq rfl rfl (R.seg q hq) (R.seg p hp)
    (R.nodup_both hp hq hne)
  have hnp1 : h1.nodes p = some ⟨f.name p, headAddr (ns p) none, lastAddr (ns p) none, hdp⟩ := by
    rw [C.others p hne]; exact hnp
  refine ⟨h1.putNode p ⟨f.name p, none, none, hdp⟩, ?_, ⟨_, R.moved hp hq hne (L := ns q ++ adopted q (ns p))
    (l := f.kids q ++ f.kids p) ?_ ?_ ?_ ?_ ?_ ?_ ?_ ?_ ?_ ?_ ?_⟩, ?_⟩
  · simp only [transferChilds, hnp, Option.bind_eq_bind, Option.bind_some, e1]
    rw [setFirst_of hnp1]
    simp only [Option.bind_some]
    rw [setLast_of (putNode_self _ _ _)]
    simp
  · intro nd hnd
    rw [hnp] at hnd; cases hnd
    simp
  · intro nd hnd
    rw [putNode_ne _ _ (Ne.symm hne)]
    exact C.nodes nd hnd
  · intro r h2 h3
    rw [putNode_ne _ _ h2, C.others r h3]
  · exact C.seg
  · intro b h2 h3
    rw [putNode_items]
    exact C.frame b (by rw [List.map_append, List.mem_append]; exact fun hx => hx.elim h3 h2)
  · exact C.nextItem
  · exact C.nextNode
  · rw [List.map_append, adopted_fst, ← List.map_append]; exact R.nodup_both hp hq hne
  · rw [List.map_append, adopted_info, ← R.kids_eq hp, R.info q hq, List.map_append]
  · intro b; rw [List.map_append, adopted_fst, List.mem_append]
  · intro e he
    rcases List.mem_append.mp he with he | he
    · exact R.data_of hq he
    · obtain ⟨x, hx, rfl⟩ := List.mem_map.mp he
      exact R.data_of hp (e := x) hx
  · exact tame_moved T hp hr (fun c hc => List.mem_append.mp hc)

/-! ### Transferring after an item -/

theorem adoptLoop_spec {q ref : Nat} {B : List (Nat × Info)} : ∀ (S : List (Nat × Info)) (k : Nat) (h : Heap)
    (pv : Option Nat) (a : Nat) (i : Info) (cr : Cell Info) (p0 : Option Nat),
    S.length < k → h.items ref = some cr → cr.data.parent = some q →
    Seg h.items pv ((a, i) :: S) none → Seg h.items p0 B none →
    (((a, i) :: S ++ B).map Prod.fst).Nodup → ref ∉ ((a, i) :: S ++ B).map Prod.fst →
    ∃ h' last, adoptLoop ref (headAddr B none) k h a = some (h', last) ∧
      lastAddr ((a, i) :: S) none = some last ∧
      Seg h'.items pv (adopted q ((a, i) :: S)) (headAddr B none) ∧ Seg h'.items (some last) B none ∧
      (∀ b, b ∉ ((a, i) :: S ++ B).map Prod.fst → h'.items b = h.items b) ∧
      h'.nodes = h.nodes ∧ h'.nextItem = h.nextItem ∧ h'.nextNode = h.nextNode := by
  intro S
  induction S with
  | nil =>
    intro k h pv a i cr p0 hk hr hrp hs hB hnd href
    cases k with
    | zero => simp at hk
    | succ k =>
    have hcell : h.items a = some ⟨pv, none, i⟩ := hs.1
    have haB : a ∉ B.map Prod.fst := by
      simp at hnd; simpa using hnd.1
    have ndB : (B.map Prod.fst).Nodup := by simp at hnd; exact hnd.2
    have hB1 : Seg (h.items.put a ⟨pv, headAddr B none, ⟨some q, i.data⟩⟩) p0 B none := seg_put_of_notMem haB hB
    obtain ⟨m, e1, s1, f1⟩ := join_prev
      { h with items := h.items.put a ⟨pv, headAddr B none, ⟨some q, i.data⟩⟩ } hB1 ndB (some a)
    refine ⟨{ h with items := m }, a, ?_, rfl, ?_, s1, ?_, rfl, rfl, rfl⟩
    · simp only [adoptLoop, hr, hrp, Option.bind_eq_bind, Option.bind_some]
      rw [setParent_of hcell]
      simp only [Option.bind_some, Mem.put_self]
      rw [setNext_of (Mem.put_self _ _ _)]
      simp only [Option.bind_some, Mem.put_put, e1]
    · simp only [adopted, List.map_cons, List.map_nil, Seg, headAddr_nil, and_true]
      rw [f1 a haB]
      exact Mem.put_self _ _ _
    · intro b hb
      simp only [List.map_append, List.map_cons, List.map_nil, List.mem_append, List.mem_cons,
        List.not_mem_nil, or_false, not_or] at hb
      rw [show ({ h with items := m } : Heap).items b = m b from rfl, f1 b hb.2]
      exact Mem.put_ne _ _ hb.1
  | cons x S ih =>
    obtain ⟨c, j⟩ := x
    intro k h pv a i cr p0 hk hr hrp hs hB hnd href
    cases k with
    | zero => simp at hk
    | succ k =>
    have hcell : h.items a = some ⟨pv, some c, i⟩ := hs.1
    have hnd1 : a ∉ ((c, j) :: S ++ B).map Prod.fst := by
      simp only [List.cons_append, List.map_cons, List.nodup_cons] at hnd ⊢
      exact hnd.1
    have hnd2 : (((c, j) :: S ++ B).map Prod.fst).Nodup := by
      simp only [List.cons_append, List.map_cons, List.nodup_cons] at hnd ⊢
      exact hnd.2
    have hra : ref ≠ a := by rintro rfl; exact href (by simp)
    have haS : a ∉ ((c, j) :: S).map Prod.fst := fun hx => hnd1 (by
      rw [List.map_append, List.mem_append]; exact Or.inl hx)
    have haB : a ∉ B.map Prod.fst := fun hx => hnd1 (by
      rw [List.map_append, List.mem_append]; exact Or.inr hx)
    let h1 : Heap := { h with items := h.items.put a ⟨pv, some c, ⟨some q, i.data⟩⟩ }
    obtain ⟨h', last, e1, e2, e3, e4, e5, e6, e7, e8⟩ := ih k h1 (some a) c j cr p0 (by simpa using hk)
      ((Mem.put_ne _ _ hra).trans hr) hrp (seg_put_of_notMem haS hs.2) (seg_put_of_notMem haB hB) hnd2
      (fun hx => href (by simp only [List.cons_append, List.map_cons, List.mem_cons] at hx ⊢; exact Or.inr hx))
    refine ⟨h', last, ?_, ?_, ?_, e4, ?_, e6, e7, e8⟩
    · simp only [adoptLoop, hr, hrp, Option.bind_eq_bind, Option.bind_some]
      rw [setParent_of hcell]
      simp only [Option.bind_some, Mem.put_self]
      exact e1
    · simp only [lastAddr_cons] at e2 ⊢; exact e2
    · refine ⟨?_, e3⟩
      rw [e5 a hnd1]
      exact Mem.put_self _ _ _
    · intro b hb
      simp only [List.cons_append, List.map_cons, List.mem_cons, not_or] at hb
      rw [e5 b (by simp only [List.cons_append, List.map_cons, List.mem_cons, not_or]; exact hb.2)]
      exact Mem.put_ne _ _ hb.1

theorem inv_transferAfter (I : Inv h f) {p q i : Nat} (hp : f.live p = true) (hq : f.live q = true)
    (hpq : f.below p q = false) (hi : i < (f.kids q).length) :
    ∃ a h', h.itemAt q i = some a ∧ h.transferChildsAfter p a = some h' ∧
      Inv h' (f.step (.transferAfter p q i)) := by
  obtain ⟨⟨ns, R⟩, T⟩ := I
  have hr : ¬ Reach f p q := fun hr => by rw [(below_iff T hp).mpr hr] at hpq; cases hpq
  have hne : p ≠ q := by rintro rfl; exact hr .refl
  obtain ⟨A, B, ref, ha, hsplit, hlen, _, _⟩ := R.itemAt hq (List.getElem?_eq_getElem hi)
  obtain ⟨hdp, hnp⟩ := R.nodes p hp
  obtain ⟨hdq, hnq⟩ := R.nodes q hq
  refine ⟨ref, ?_⟩
  generalize (f.kids q)[i] = v at hsplit
  cases eS : ns p with
  | nil =>
    have hkp : f.kids p = [] := by rw [R.kids_eq hp, eS]; rfl
    refine ⟨h, ha, ?_, ?_⟩
    · simp [transferChildsAfter, hnp, eS]
    · refine Inv.congr ⟨⟨ns, R⟩, T⟩ rfl rfl rfl ?_
      intro n _
      simp only [step, setKids, hkp, List.append_nil, List.take_append_drop]
      by_cases h1 : n = p
      · simp [h1, hkp]
      · by_cases h2 : n = q
        · subst h2; simp [h1]
        · simp [h1, h2]
  | cons x S =>
    obtain ⟨b, j⟩ := x
    have hsq := R.seg q hq
    have hsp := R.seg p hp
    have hndq := R.nodup q hq
    have hndp := R.nodup p hp
    have hap := R.apart hp hq hne
    have hlep := R.length_le hp
    rw [hsplit] at hsq hndq hap hnq
    rw [eS] at hsp hndp hap hlep hnp
    obtain ⟨ndA, ndB, hrA, hrB, dis⟩ := nodup_split hndq
    have hcr := seg_mid hsq
    have hcb : h.items b = some ⟨none, headAddr S none, j⟩ := hsp.1
    have hrb : ref ≠ b := by
      intro e
      exact hap ref (by simp) (by rw [e]; simp)
    have hrS : ref ∉ ((b, j) :: S).map Prod.fst := hap ref (by simp)
    have hbS : b ∉ S.map Prod.fst := by simp only [List.map_cons, List.nodup_cons] at hndp; exact hndp.1
    have hSB : ∀ c ∈ B.map Prod.fst, c ∉ ((b, j) :: S).map Prod.fst := fun c hc => hap c (by simp at hc ⊢; grind)
    have hSA : ∀ c ∈ A.map Prod.fst, c ∉ ((b, j) :: S).map Prod.fst := fun c hc => hap c (by simp at hc ⊢; grind)
    let h2 : Heap := { h with items :=
        (h.items.put ref ⟨lastAddr A none, some b, ⟨some q, v⟩⟩).put b ⟨some ref, headAddr S none, j⟩ }
    have hm2 : ∀ c, c ≠ ref → c ≠ b → h2.items c = h.items c := fun c h3 h4 =>
      (Mem.put_ne _ _ h4).trans (Mem.put_ne _ _ h3)
    rw [seg_append] at hsq
    obtain ⟨sA, sR, sB⟩ := hsq
    have sB2 : Seg h2.items (some ref) B none :=
      seg_frame (fun c hc => hm2 c (fun e => hrB (e ▸ hc)) (fun e => hSB c hc (by rw [e]; simp))) sB
    have sA2 : Seg h2.items none A (some ref) :=
      seg_frame (fun c hc => hm2 c (fun e => hrA (e ▸ hc)) (fun e => hSA c hc (by rw [e]; simp))) sA
    have sS2 : Seg h2.items (some ref) ((b, j) :: S) none :=
      ⟨Mem.put_self _ _ _, seg_frame (fun c hc => hm2 c
        (fun e => hrS (by rw [← e]; simp at hc ⊢; exact Or.inr hc)) (fun e => hbS (e ▸ hc))) hsp.2⟩
    have hr2 : h2.items ref = some ⟨lastAddr A none, some b, ⟨some q, v⟩⟩ :=
      (Mem.put_ne _ _ hrb).trans (Mem.put_self _ _ _)
    obtain ⟨h3, last, e1, e2, e3, e4, e5, e6, e7, e8⟩ := adoptLoop_spec (q := q) (ref := ref) (B := B) S h.nextItem h2
      (some ref) b j _ (some ref) (by simp at hlep; omega) hr2 rfl sS2 sB2
      (by
        rw [List.map_append, List.nodup_append]
        exact ⟨hndp, ndB, fun x hx y hy e => hSB y hy (e ▸ hx)⟩)
      (by
        rw [List.map_append, List.mem_append]
        exact fun hx => hx.elim hrS hrB)
    let L : List (Nat × Info) := A ++ (ref, ⟨some q, v⟩) :: (adopted q ((b, j) :: S) ++ B)
    -- the chain of `q`
    have hA3 : ∀ c, c ∈ A.map Prod.fst ∨ c = ref → c ∉ ((b, j) :: S ++ B).map Prod.fst := by
      intro c hc hx
      rw [List.map_append, List.mem_append] at hx
      rcases hc with hc | rfl
      · rcases hx with hx | hx
        · exact hSA c hc hx
        · exact dis c hc hx
      · rcases hx with hx | hx
        · exact hrS hx
        · exact hrB hx
    have sL : Seg h3.items none L none := by
      refine (seg_append _ _ _ _ _).mpr ⟨seg_frame (fun c hc => e5 c (hA3 c (Or.inl hc))) sA2, ?_, ?_⟩
      · rw [e5 ref (hA3 ref (Or.inr rfl)), hr2]
        simp [adopted]
      · rw [seg_append]
        refine ⟨e3, ?_⟩
        have : lastAddr (adopted q ((b, j) :: S)) (some ref) = some last := by
          rw [← e2]
          have : ∀ (l : List (Nat × Info)) (o : Option Nat), lastAddr (adopted q l) o = lastAddr l o := by
            intro l
            induction l with
            | nil => intro o; rfl
            | cons e t ih => intro o; obtain ⟨a, i⟩ := e; exact ih (some a)
          rw [this]
          rfl
        rw [this]; exact e4
    have hlast : h3.parentOf last = some q := by
      have hm : last ∈ (adopted q ((b, j) :: S)).map Prod.fst := by rw [adopted_fst]; exact lastAddr_mem e2
      obtain ⟨inf, hinf⟩ := exists_entry hm
      have hp1 : inf.parent = some q := by
        obtain ⟨y, _, hy⟩ := List.mem_map.mp hinf
        cases hy; rfl
      obtain ⟨cell, k1, k2⟩ := seg_entry sL (a := last) (i := inf) (by simp only [L]; simp [hinf])
      simp [parentOf, k1, k2, hp1]
    have hnq3 : h3.nodes q = some ⟨f.name q, headAddr L none, lastAddr (A ++ (ref, (⟨some q, v⟩ : Info)) :: B) none, hdq⟩ := by
      rw [e6]
      show h.nodes q = _
      rw [hnq]
      simp [L, headAddr_append]
    have hlL : B ≠ [] → lastAddr (A ++ (ref, (⟨some q, v⟩ : Info)) :: B) none = lastAddr L none := by
      intro hB
      simp only [L, lastAddr_append, lastAddr_cons]
      rw [lastAddr_ne_none B hB, lastAddr_ne_none B hB (lastAddr _ _)]
    have hlL2 : B = [] → lastAddr L none = some last := by
      intro hB
      subst hB
      simp only [L, List.append_nil, lastAddr_append, lastAddr_cons]
      rw [← e2]
      have : ∀ (l : List (Nat × Info)) (o : Option Nat), lastAddr (adopted q l) o = lastAddr l o := by
        intro l
        induction l with
        | nil => intro o; rfl
        | cons e t ih => intro o; obtain ⟨a, i⟩ := e; exact ih (some a)
      rw [this]; rfl
    have e9 : h3.setLastIf (headAddr B none) q (some last) =
        some (h3.putNode q ⟨f.name q, headAddr L none, lastAddr L none, hdq⟩) := by
      cases B with
      | nil =>
        simp only [setLastIf, headAddr_nil]
        rw [setLast_of hnq3, hlL2 rfl]
      | cons e t =>
        obtain ⟨e, y⟩ := e
        simp only [setLastIf, headAddr_cons]
        rw [putNode_id]
        rw [hnq3, hlL (by simp)]
    have hnp3 : (h3.putNode q ⟨f.name q, headAddr L none, lastAddr L none, hdq⟩).nodes p =
        some ⟨f.name p, headAddr ((b, j) :: S) none, lastAddr ((b, j) :: S) none, hdp⟩ := by
      rw [putNode_ne _ _ hne, e6]; exact hnp
    refine ⟨(h3.putNode q ⟨f.name q, headAddr L none, lastAddr L none, hdq⟩).putNode p ⟨f.name p, none, none, hdp⟩,
      ha, ?_, ⟨_, R.moved hp hq hne (L := L)
        (l := (f.kids q).take (i + 1) ++ f.kids p ++ (f.kids q).drop (i + 1)) ?_ ?_ ?_ ?_ ?_ ?_ ?_ ?_ ?_ ?_ ?_⟩, ?_⟩
    · simp only [transferChildsAfter, hnp, hcr, Option.bind_eq_bind, Option.bind_some, headAddr_cons]
      rw [setNext_of hcr]
      simp only [Option.bind_some]
      rw [setPrev_of (c := ⟨none, headAddr S none, j⟩)
        (by exact (Mem.put_ne _ _ (Ne.symm hrb)).trans hcb)]
      simp only [Option.bind_some]
      have e1' := e1
      simp only [h2] at e1'
      rw [e1']
      simp only [Option.bind_some, hlast, e9]
      rw [setFirst_of hnp3]
      simp only [Option.bind_some]
      rw [setLast_of (putNode_self _ _ _)]
      simp
    · intro nd hnd
      rw [hnp] at hnd; cases hnd
      simp
    · intro nd hnd
      rw [hnq] at hnd; cases hnd
      rw [putNode_ne _ _ (Ne.symm hne)]
      simp
    · intro r h4 h5
      rw [putNode_ne _ _ h4, putNode_ne _ _ h5, e6]
    · exact sL
    · intro c h4 h5
      rw [eS] at h4
      rw [hsplit] at h5
      rw [putNode_items, putNode_items]
      simp only [List.map_append, List.map_cons, List.mem_append, List.mem_cons, not_or] at h4 h5
      rw [e5 c (by
        simp only [List.cons_append, List.map_cons, List.map_append, List.mem_append, List.mem_cons, not_or]
        exact ⟨h4.1, h4.2, h5.2.2⟩)]
      exact hm2 c h5.2.1 h4.1
    · exact e7
    · exact e8
    · have hboth := R.nodup_both hp hq hne
      rw [hsplit, eS] at hboth
      simp only [L]
      rw [List.map_append, List.map_cons, List.map_append, adopted_fst]
      simp only [List.map_append, List.map_cons] at hboth ⊢
      refine (List.Perm.nodup_iff ?_).mp hboth
      simp only [List.append_assoc, List.cons_append]
      refine List.Perm.append_left _ (List.Perm.cons _ ?_)
      rw [← List.cons_append]
      exact List.perm_append_comm
    · have hpar : ∀ e ∈ ns q, e.2.parent = some q := fun e he => (R.entry hq (a := e.1) (i := e.2) he).1
      rw [hsplit] at hpar
      have hA := Rep.info_of_parts (p := q) (A := A) (fun e he => hpar e (by simp [he]))
      have hB := Rep.info_of_parts (p := q) (A := B) (fun e he => hpar e (by simp [he]))
      have h1 : (A ++ (ref, (⟨some q, v⟩ : Info)) :: B).map (·.2.data) = (A.map (·.2.data) ++ [v]) ++ B.map (·.2.data) := by simp
      rw [R.kids_eq hq, hsplit, h1, List.take_left' (by simp [hlen]), List.drop_left' (by simp [hlen]), R.kids_eq hp, eS]
      simp only [L, List.map_append, List.map_cons, adopted_info, hA, hB, List.append_assoc, List.cons_append, List.nil_append]
    · intro c
      rw [hsplit, eS]
      simp only [L]
      rw [List.map_append, List.map_cons, List.map_append, adopted_fst]
      simp only [List.map_append, List.map_cons, List.mem_append, List.mem_cons]
      grind
    · intro e he
      simp only [L, List.mem_append, List.mem_cons] at he
      rcases he with he | he | he | he
      · exact R.data_of hq (by rw [hsplit]; simp [he])
      · subst he; exact R.data_of hq (e := (ref, ⟨some q, v⟩)) (by rw [hsplit]; simp)
      · obtain ⟨x, hx, rfl⟩ := List.mem_map.mp he
        exact R.data_of hp (e := x) (by rw [eS]; exact hx)
      · exact R.data_of hq (by rw [hsplit]; simp [he])
    · apply tame_moved T hp hr
      intro c hc
      rcases List.mem_append.mp hc with hc | hc
      · rcases List.mem_append.mp hc with hc | hc
        · exact Or.inl (List.mem_of_mem_take hc)
        · exact Or.inr hc
      · exact Or.inl (List.mem_of_mem_drop hc)

/-! ### Removing the content -/

theorem removeText {h : Heap} {A B : List (Nat × Info)} {a : Nat} {i : Info} {k : TextKind} {s : List Char}
    (hs : Seg h.items none (A ++ (a, i) :: B) none)
    (hnd : ((A ++ (a, i) :: B).map Prod.fst).Nodup) (ht : i.data = .text k s) :
    ∃ m, h.itemRemove a true = some { h with items := m } ∧ Seg m none (A ++ B) none ∧
      (∀ b, b ∉ (A ++ (a, i) :: B).map Prod.fst → m b = h.items b) := by
  obtain ⟨ndA, ndB, haA, haB, dis⟩ := nodup_split hnd
  have hcell := seg_mid hs
  rw [seg_append] at hs
  obtain ⟨hA, hB⟩ := hs
  obtain ⟨m1, m, e1, e2, sg, fr⟩ := h.join_around hA hB.2 ndA ndB dis
  have hcell' : m a = some ⟨lastAddr A none, headAddr B none, i⟩ := by
    rw [fr a haA haB]; exact hcell
  have hAB : a ∉ (A ++ B).map Prod.fst := by
    rw [List.map_append, List.mem_append]; exact fun hx => hx.elim haA haB
  refine ⟨fun b => if b = a then none else (m.put a ⟨none, none, i⟩) b, ?_, ?_, ?_⟩
  · have e3 : h.itemUnlink a = some { h with items := m.put a ⟨none, none, i⟩ } := by
      unfold itemUnlink
      simp only [hcell, e1, e2, removeEnds, ht, Option.bind_eq_bind, Option.bind_some]
      rw [setNext_of (c := ⟨lastAddr A none, headAddr B none, i⟩) (by exact hcell')]
      simp only [Option.bind_some]
      rw [setPrev_of (Mem.put_self _ _ _)]
      simp
    simp only [itemRemove, e3, if_true, itemFree, itemFreeWith]
    rw [Mem.put_self]
    simp only [ht]
    rw [freeItem_of (c := ⟨none, none, i⟩) (by exact Mem.put_self _ _ _)]
  · refine seg_frame ?_ sg
    intro b hb
    have hba : b ≠ a := fun e => hAB (e ▸ hb)
    simp [hba, Mem.put_ne _ _ hba]
  · intro b hb
    simp only [List.map_append, List.map_cons, List.mem_append, List.mem_cons, not_or] at hb
    simp [hb.2.1, Mem.put_ne _ _ hb.2.1, fr b hb.1 hb.2.2]

theorem isContent_text {c : Child} (h : isContent c = true) : ∃ k s, c = .text k s := by
  cases c with
  | node n => simp [isContent] at h
  | text k s => exact ⟨k, s, rfl⟩

theorem emptyLoop_spec : ∀ (S K : List (Nat × Info)) (k : Nat) (h : Heap) (removed count : Nat),
    S.length ≤ k → Seg h.items none (K ++ S) none → ((K ++ S).map Prod.fst).Nodup →
    ∃ m, emptyLoop k h (headAddr S none) removed count =
        some ({ h with items := m }, removed + (S.filter fun e => isContent e.2.data).length, count + S.length) ∧
      Seg m none (K ++ S.filter fun e => !isContent e.2.data) none ∧
      (∀ b, b ∉ (K ++ S).map Prod.fst → m b = h.items b) := by
  intro S
  induction S with
  | nil =>
    intro K k h removed count _ hs _
    exact ⟨h.items, by cases k <;> simp [emptyLoop], by simpa using hs, fun _ _ => rfl⟩
  | cons x S ih =>
    obtain ⟨a, i⟩ := x
    intro K k h removed count hk hs hnd
    cases k with
    | zero => simp at hk
    | succ k =>
    have hcell := seg_mid hs
    cases hc : isContent i.data with
    | true =>
      obtain ⟨kd, s, ht⟩ := isContent_text hc
      obtain ⟨m, e1, s1, f1⟩ := removeText hs hnd ht
      have hnd' : ((K ++ S).map Prod.fst).Nodup := by
        obtain ⟨n1, n2, _, _, n5⟩ := nodup_split hnd
        rw [List.map_append, List.nodup_append]
        exact ⟨n1, n2, fun x hx y hy e => n5 x hx (e ▸ hy)⟩
      obtain ⟨m2, e2, s2, f2⟩ := ih K k { h with items := m } (removed + 1) (count + 1) (by simpa using hk) s1 hnd'
      refine ⟨m2, ?_, ?_, ?_⟩
      · show emptyLoop (k + 1) h (some a) removed count = _
        simp only [emptyLoop, hcell, hc, if_true, e1, e2]
        simp only [List.filter_cons, hc, if_true, List.length_cons, Option.some.injEq, Prod.mk.injEq, true_and]
        omega
      · simpa [List.filter_cons, hc] using s2
      · intro b hb
        rw [f2 b (by intro hx; apply hb; simp at hx ⊢; grind)]
        exact f1 b hb
    | false =>
      obtain ⟨m2, e2, s2, f2⟩ := ih (K ++ [(a, i)]) k h removed (count + 1) (by simpa using hk)
        (by simpa using hs) (by simpa using hnd)
      refine ⟨m2, ?_, ?_, ?_⟩
      · show emptyLoop (k + 1) h (some a) removed count = _
        simp only [emptyLoop, hcell, hc, Bool.false_eq_true, if_false, e2]
        simp only [List.filter_cons, hc, Bool.false_eq_true, if_false, List.length_cons, Option.some.injEq,
          Prod.mk.injEq, true_and]
        omega
      · simpa [List.filter_cons, hc] using s2
      · intro b hb
        exact f2 b (by intro hx; apply hb; simp at hx ⊢; grind)

theorem headAddr_filter {l : List (Nat × Info)} {p : Nat × Info → Bool}
    (h : ∀ e, l.head? = some e → p e = true) : headAddr (l.filter p) none = headAddr l none := by
  cases l with
  | nil => rfl
  | cons e t =>
    have := h e rfl
    obtain ⟨a, i⟩ := e
    simp [this]

theorem lastAddr_filter {l : List (Nat × Info)} {p : Nat × Info → Bool}
    (h : ∀ e, l.getLast? = some e → p e = true) : lastAddr (l.filter p) none = lastAddr l none := by
  rcases eq_nil_or_concat' l with rfl | ⟨t, a, x, rfl⟩
  · rfl
  · have := h (a, x) (by simp)
    simp [List.filter_append, this, lastAddr_append]

theorem filter_lengths {α : Type} (l : List α) (p : α → Bool) :
    (l.filter p).length + (l.filter fun x => !p x).length = l.length := by
  induction l with
  | nil => rfl
  | cons a t ih =>
    cases h : p a <;> simp [h] <;> omega

theorem inv_setIsEmpty (I : Inv h f) {p : Nat} (hp : f.live p = true)
    (hk : ((f.kids p).all Heap.isContent ||
      (((f.kids p).head?.all fun c => !Heap.isContent c) &&
        ((f.kids p).getLast?.all fun c => !Heap.isContent c))) = true) :
    ∃ h', h.setIsEmpty p = some h' ∧ Inv h' (f.step (.setIsEmpty p)) := by
  obtain ⟨⟨ns, R⟩, T⟩ := I
  obtain ⟨hd, hn⟩ := R.nodes p hp
  obtain ⟨m, e1, s1, f1⟩ := emptyLoop_spec (ns p) [] h.nextItem h 0 0 (R.length_le hp) (by simpa using R.seg p hp)
    (by simpa using R.nodup p hp)
  simp only [List.nil_append, Nat.zero_add] at e1 s1 f1
  have hlens := filter_lengths (ns p) (fun e => isContent e.2.data)
  have hkids := R.kids_eq hp
  have hC : ∃ h', h.setIsEmpty p = some h' ∧
      Relinked h h' p ((ns p).filter fun e => !isContent e.2.data) ((ns p).map Prod.fst) := by
    by_cases hall : ((ns p).filter fun e => isContent e.2.data).length = (ns p).length
    · have hnil : (ns p).filter (fun e => !isContent e.2.data) = [] := by
        apply List.eq_nil_of_length_eq_zero; omega
      refine ⟨({ h with items := m } : Heap).putNode p ⟨f.name p, none, none, hd⟩, ?_, ?_⟩
      · simp only [Heap.setIsEmpty, hn, Option.bind_eq_bind, Option.bind_some, e1, hall, if_true]
        rw [setFirst_of (c := ⟨f.name p, headAddr (ns p) none, lastAddr (ns p) none, hd⟩) (by exact hn)]
        simp only [Option.bind_some]
        rw [setLast_of (putNode_self _ _ _)]
        simp
      · constructor
        · intro nd hnd
          rw [hn] at hnd; cases hnd
          simp [hnil]
        · intro n hne; rw [putNode_ne _ _ hne]
        · exact s1
        · exact f1
        · rfl
        · rfl
    · refine ⟨{ h with items := m }, ?_, ?_⟩
      · simp only [Heap.setIsEmpty, hn, Option.bind_eq_bind, Option.bind_some, e1, hall, if_false]
      · have hends : ((f.kids p).head?.all fun c => !Heap.isContent c) = true ∧
            ((f.kids p).getLast?.all fun c => !Heap.isContent c) = true := by
          rw [Bool.or_eq_true, Bool.and_eq_true] at hk
          rcases hk with hk | hk
          · exfalso
            apply hall
            congr 1
            rw [List.filter_eq_self]
            intro e he
            rw [List.all_eq_true] at hk
            exact hk _ (by rw [hkids]; exact List.mem_map.mpr ⟨e, he, rfl⟩)
          · exact hk
        rw [hkids] at hends
        constructor
        · intro nd hnd
          rw [hn] at hnd; cases hnd
          show h.nodes p = _
          rw [hn]
          dsimp only
          rw [headAddr_filter, lastAddr_filter]
          · intro e he
            have := hends.2
            rw [List.getLast?_map, he] at this
            simpa using this
          · intro e he
            have := hends.1
            rw [List.head?_map, he] at this
            simpa using this
        · intro n hne; rfl
        · exact s1
        · exact f1
        · rfl
        · rfl
  obtain ⟨h', e2, C⟩ := hC
  refine ⟨h', e2, ⟨_, R.relink hp C (l := (f.kids p).filter fun c => !Heap.isContent c) ?_ ?_ ?_ ?_ ?_ ?_ ?_⟩, ?_⟩
  · intro b hb; exact hb
  · intro b hb; exact Or.inl hb
  · exact List.Nodup.sublist (List.filter_sublist.map _) (R.nodup p hp)
  · rw [hkids]
    have : ∀ l : List (Nat × Info), (∀ e ∈ l, e.2.parent = some p) →
        (l.filter fun e => !isContent e.2.data).map Prod.snd =
          ((l.map (·.2.data)).filter fun c => !isContent c).map fun v => ⟨some p, v⟩ := by
      intro l hl
      rw [List.filter_map, List.map_map]
      apply List.map_congr_left
      intro e he
      have := hl e ((List.mem_filter.mp he).1)
      obtain ⟨a, ⟨x, y⟩⟩ := e
      dsimp only at this
      subst this
      rfl
    exact this _ (fun e he => (R.entry hp (a := e.1) (i := e.2) he).1)
  · intro b hb; exact R.addr_lt hp hb
  · intro e he; exact Or.inl ((List.mem_filter.mp he).1)
  · rintro b c hb hbL _ ⟨cell, k1, k2⟩
    exfalso
    apply hbL
    have he := R.entry_of_cell hp hb k1
    refine List.mem_map.mpr ⟨_, List.mem_filter.mpr ⟨he, ?_⟩, rfl⟩
    simp [k2, isContent]
  · have he : ∀ n c, Edge (f.setKids p ((f.kids p).filter fun c => !Heap.isContent c)) n c → Edge f n c := by
      intro n c e
      rw [edge_setKids] at e
      refine ⟨e.1, ?_⟩
      by_cases hn : n = p
      · have := e.2
        simp only [hn, if_true] at this
        rw [hn]
        exact (List.mem_filter.mp this).1
      · simpa [hn] using e.2
    exact tame_fewer T rfl (fun n hn => hn) he (fun n c e => T.closed n c (he n c e))

/-! ### Histories -/

theorem inv_exec (I : Inv h f) {op : Op} (hf : f.fits op = true) :
    ∃ h', h.exec op = some h' ∧ Inv h' (f.step op) := by
  cases op with
  | create name => exact ⟨_, rfl, inv_create I name⟩
  | setChild p v =>
    simp only [fits, Bool.and_eq_true] at hf
    exact inv_setChild I hf.1 hf.2
  | setChildRef p v =>
    simp only [fits, Bool.and_eq_true] at hf
    obtain ⟨h1, a, h', e1, e2, I'⟩ := inv_setChildRef I hf.1 hf.2
    exact ⟨h', by simp [exec, e1, e2], I'⟩
  | setAfter p i v =>
    simp only [fits, Bool.and_eq_true, decide_eq_true_eq] at hf
    obtain ⟨a, h', e1, e2, I'⟩ := inv_setAfter I hf.1.1 hf.1.2 hf.2
    exact ⟨h', by simp [exec, e1, e2], I'⟩
  | removeNode n d =>
    simp only [fits, Bool.and_eq_true] at hf
    exact inv_removeNode I hf.1 hf.2 d
  | removeItem p i d =>
    simp only [fits, Bool.and_eq_true] at hf
    obtain ⟨a, h', e1, e2, I'⟩ := inv_removeItem I hf.1 hf.2 d
    exact ⟨h', by simp [exec, e1, e2], I'⟩
  | replaceItem p i v d =>
    simp only [fits, Bool.and_eq_true] at hf
    obtain ⟨a, h1, b, h', e1, e2, e3, I'⟩ := inv_replaceItem I hf.1.1 hf.1.2 hf.2 d
    exact ⟨h', by simp [exec, e1, e2, e3], I'⟩
  | replaceNode n m d =>
    simp only [fits, Bool.and_eq_true] at hf
    exact inv_replaceNode I hf.1.1 hf.1.2 hf.2 d
  | transfer p q =>
    simp only [fits, Bool.and_eq_true, Bool.not_eq_true'] at hf
    exact inv_transfer I hf.1.1 hf.1.2 hf.2
  | transferAfter p q i =>
    simp only [fits, Bool.and_eq_true, Bool.not_eq_true', decide_eq_true_eq] at hf
    obtain ⟨a, h', e1, e2, I'⟩ := inv_transferAfter I hf.1.1.1 hf.1.1.2 hf.1.2 hf.2
    exact ⟨h', by simp [exec, e1, e2], I'⟩
  | setIsEmpty p =>
    simp only [fits, Bool.and_eq_true (a := f.live p)] at hf
    exact inv_setIsEmpty I hf.1 hf.2
  | free n =>
    simp only [fits, Bool.and_eq_true, Bool.not_eq_true'] at hf
    exact inv_free I hf.1 hf.2
  | copy n childs =>
    simp only [fits] at hf
    obtain ⟨h', e, I'⟩ := inv_copy I hf childs
    exact ⟨h', by simp [exec, e], I'⟩

theorem inv_run : ∀ (ops : List Op) {h : Heap} {f : Forest}, Inv h f → f.Fits ops = true →
    ∃ h', h.run ops = some h' ∧ Inv h' (f.run ops)
  | [], h, f, I, _ => ⟨h, rfl, I⟩
  | op :: ops, h, f, I, hf => by
    simp only [Fits, Bool.and_eq_true] at hf
    obtain ⟨h1, e1, I1⟩ := inv_exec I hf.1
    obtain ⟨h2, e2, I2⟩ := inv_run ops I1 hf.2
    exact ⟨h2, by simp [Heap.run, e1, e2], I2⟩

/-! ### Reading -/

theorem forwards_of_seg {h : Heap} {l : List (Nat × Info)} {p : Option Nat} (hs : Seg h.items p l none) :
    h.Forwards (headAddr l none) (l.map Prod.snd) := by
  induction l generalizing p with
  | nil => exact .nil
  | cons e t ih =>
    obtain ⟨a, i⟩ := e
    exact .cons (c := ⟨p, headAddr t none, i⟩) hs.1 (ih hs.2)

theorem backwards_of_seg {h : Heap} : ∀ (n : Nat) (l : List (Nat × Info)) (q : Option Nat), l.length = n →
    Seg h.items none l q → h.Backwards (lastAddr l none) ((l.map Prod.snd).reverse) := by
  intro n
  induction n with
  | zero =>
    intro l q hl _
    have : l = [] := List.eq_nil_of_length_eq_zero hl
    subst this
    exact .nil
  | succ n ih =>
    intro l q hl hs
    rcases eq_nil_or_concat' l with rfl | ⟨t, a, i, rfl⟩
    · simp at hl
    · rw [seg_append] at hs
      rw [lastAddr_concat, List.map_append, List.reverse_append]
      exact .cons (c := ⟨lastAddr t none, q, i⟩) hs.2.1 (ih t _ (by simpa using hl) hs.1)

theorem Rep.shows (R : Rep h f ns) {n : Nat} (hn : f.live n = true) :
    h.Shows n (f.name n) (f.kids n) := by
  obtain ⟨hd, h1⟩ := R.nodes n hn
  refine ⟨⟨_, h1, rfl⟩, ⟨headAddr (ns n) none, by simp [itemFirst, h1], ?_⟩, ⟨lastAddr (ns n) none, by simp [itemLast, h1], ?_⟩, ?_⟩
  · rw [← R.info n hn]; exact forwards_of_seg (R.seg n hn)
  · rw [List.map_reverse, ← R.info n hn]; exact backwards_of_seg _ _ _ rfl (R.seg n hn)
  · intro m hm
    obtain ⟨a, ha⟩ := R.edge_entry (f := f) (n := n) (c := m) ⟨hn, hm⟩
    obtain ⟨nd, k1, k2⟩ := R.child n a m hn ha
    obtain ⟨c, k3, k4⟩ := seg_entry (R.seg n hn) ha
    simp [getParent, k1, k2, k3, k4]

theorem Inv.shows (I : Inv h f) {n : Nat} (hn : f.live n = true) : h.Shows n (f.name n) (f.kids n) := by
  obtain ⟨⟨_, R⟩, _⟩ := I
  exact R.shows hn

end Axl.Heap
