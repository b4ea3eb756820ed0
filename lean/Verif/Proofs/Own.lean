/-
Proofs for C57: every block is owned by one place.

`St P s L`: the documents of `P` have their factories and the blocks that were not given back are those
of `L`, each once.  The predicates `ok…` say that the flags tell the truth and that the factories
pointed to are there.
-/
import Verif.Spec.Own

namespace Axl.Own

/-- Equality of lists up to order, by counting. -/
macro "perm" : tactic => `(tactic| all_goals (refine List.perm_iff_count.mpr fun a => ?_; simp only [List.count_append, List.count_nil, List.append_nil, List.nil_append] at * <;> omega))

/-- The blocks of a pointer. -/
def refB : Ref → List Nat
  | .own b => [b]
  | .pool _ => []

/-- The flag tells the truth, and the factory is there. -/
def okRef (P : List Nat) (pool : Bool) : Ref → Prop
  | .own _ => pool = false
  | .pool d => pool = true ∧ d ∈ P

structure St (P : List Nat) (s : Store) (L : List Nat) : Prop where
  pools : s.pools = P
  perm : s.live.Perm L
  nodup : s.live.Nodup
  bound : ∀ b ∈ s.live, b < s.next

theorem St.of_perm {P s L L'} (h : St P s L) (hp : L.Perm L') : St P s L' :=
  ⟨h.pools, h.perm.trans hp, h.nodup, h.bound⟩

theorem St.alloc {P s L} (h : St P s L) : St P s.alloc.1 (refB s.alloc.2 ++ L) ∧ okRef P false s.alloc.2 := by
  refine ⟨⟨h.pools, ?_, ?_, ?_⟩, rfl⟩
  · simpa [Store.alloc, refB] using h.perm
  · simp only [Store.alloc, List.nodup_cons]
    exact ⟨fun hm => absurd (h.bound _ hm) (Nat.lt_irrefl _), h.nodup⟩
  · intro b hb
    simp only [Store.alloc, List.mem_cons] at hb ⊢
    rcases hb with rfl | hb
    · exact Nat.lt_succ_self _
    · exact Nat.lt_succ_of_lt (h.bound b hb)

theorem St.free {P s L r} (h : St P s (refB r ++ L)) (hr : okRef P false r) :
    ∃ s', s.free r = some s' ∧ St P s' L := by
  cases r with
  | pool d => simp [okRef] at hr
  | own b =>
    have hb : b ∈ s.live := h.perm.mem_iff.mpr (by simp [refB])
    refine ⟨{ s with live := s.live.erase b }, by simp [Store.free, hb], ⟨h.pools, ?_, ?_, ?_⟩⟩
    · have := h.perm.erase b
      simpa [refB] using this
    · exact h.nodup.erase b
    · intro c hc
      exact h.bound c (List.mem_of_mem_erase hc)

theorem St.freeUnless {P s L r f} (h : St P s (refB r ++ L)) (hr : okRef P f r) :
    ∃ s', s.freeUnless f r = some s' ∧ St P s' L := by
  cases f with
  | false => simpa [Store.freeUnless] using h.free hr
  | true =>
    cases r with
    | own b => simp [okRef] at hr
    | pool d => exact ⟨s, by simp [Store.freeUnless], by simpa [refB] using h⟩

theorem St.touch {P s L r f} (h : St P s L) (hr : okRef P f r) (hm : ∀ b ∈ refB r, b ∈ L) :
    s.touch r = some () := by
  cases r with
  | own b =>
    have hb : b ∈ s.live := h.perm.mem_iff.mpr (hm b (by simp [refB]))
    simp [Store.touch, hb]
  | pool d =>
    have : d ∈ s.pools := by rw [h.pools]; exact hr.2
    simp [Store.touch, this]

theorem St.touchPool {P s L d} (h : St P s L) (hd : d ∈ P) : s.touch (.pool d) = some () := by
  have : d ∈ s.pools := by rw [h.pools]; exact hd
  simp [Store.touch, this]

/-! Blocks and flags. -/

def attrB (a : AttrC) : List Nat := refB a.cell ++ refB a.name ++ refB a.value
def attrListB : List AttrC → List Nat
  | [] => []
  | a :: l => attrB a ++ attrListB l
def refsB : List Ref → List Nat
  | [] => []
  | r :: l => refB r ++ refsB l
def entryB (e : Entry) : List Nat := refB e.key ++ refsB e.data
def entriesB : List Entry → List Nat
  | [] => []
  | e :: l => entryB e ++ entriesB l
def attrsB : Attrs → List Nat
  | .list l => attrListB l
  | .hash h l => refB h ++ entriesB l
def optB : Option Ref → List Nat
  | none => []
  | some r => refB r
def piB (p : PiRec) : List Nat := refB p.cell ++ refB p.name ++ optB p.content
def leafB : Leaf → List Nat
  | .text _ it c t _ => refB it.ref ++ refB c ++ refB t
  | .pi it p => refB it.ref ++ piB p
def annotB : Option (Ref × List Entry) → List Nat
  | none => []
  | some (h, l) => refB h ++ entriesB l
def holderB : Option ItemRec → List Nat
  | none => []
  | some it => refB it.ref
def headB (h : Head) : List Nat :=
  refB h.self ++ refB h.name ++ attrsB h.attrs ++ annotB h.annot ++ holderB h.holder
mutual
def nodeB : Node → List Nat
  | .mk h items => headB h ++ itemsB items
def itemsB : Items → List Nat
  | .nil => []
  | .node n next => nodeB n ++ itemsB next
  | .leaf l next => leafB l ++ itemsB next
end

section ok
variable (P : List Nat)
def okAttr (a : AttrC) : Prop :=
  okRef P a.fromFactory a.cell ∧ okRef P a.fromFactory a.name ∧ okRef P a.fromFactory a.value
def okAttrList (l : List AttrC) : Prop := ∀ a ∈ l, okAttr P a
def okEntry (e : Entry) : Prop := okRef P (!e.keyFree) e.key ∧ ∀ r ∈ e.data, okRef P false r
def okEntries (l : List Entry) : Prop := ∀ e ∈ l, okEntry P e
def okAttrs : Attrs → Prop
  | .list l => okAttrList P l
  | .hash h l => okRef P false h ∧ okEntries P l
def okOpt : Option Ref → Prop
  | none => True
  | some r => okRef P false r
def okItem (it : ItemRec) : Prop := okRef P it.fromFactory it.ref ∧ ∀ d, it.doc = some d → d ∈ P
def okPi (p : PiRec) : Prop := okRef P false p.cell ∧ okRef P false p.name ∧ okOpt P p.content
def okLeaf : Leaf → Prop
  | .text _ it c t f => okItem P it ∧ okRef P f c ∧ okRef P f t
  | .pi it p => okItem P it ∧ okPi P p
def okAnnot : Option (Ref × List Entry) → Prop
  | none => True
  | some (h, l) => okRef P false h ∧ okEntries P l
def okHolder : Option ItemRec → Prop
  | none => True
  | some it => okItem P it
structure okHead (h : Head) : Prop where
  self : okRef P h.fromFactory h.self
  name : okRef P h.nameFactory h.name
  attrs : okAttrs P h.attrs
  annot : okAnnot P h.annot
  holder : okHolder P h.holder
mutual
def okNode : Node → Prop
  | .mk h items => okHead P h ∧ okItems items
def okItems : Items → Prop
  | .nil => True
  | .node n next => okNode n ∧ n.head.holder.isSome ∧ okItems next
  | .leaf l next => okLeaf P l ∧ okItems next
end
end ok

/-! Destruction. -/

theorem freeAll_ok {P} : ∀ (l : List Ref) {s L}, (∀ r ∈ l, okRef P false r) → St P s (refsB l ++ L) →
    ∃ s', s.freeAll l = some s' ∧ St P s' L
  | [], s, L, _, h => ⟨s, rfl, h⟩
  | r :: l, s, L, hl, h => by
    obtain ⟨s1, e1, h1⟩ := (h.of_perm (L' := refB r ++ (refsB l ++ L)) (by simp only [refsB]; perm)).free (hl r (by simp))
    obtain ⟨s2, e2, h2⟩ := freeAll_ok l (fun x hx => hl x (by simp [hx])) h1
    exact ⟨s2, by simp [Store.freeAll, e1, e2], h2⟩

theorem freeAttrList_ok {P} : ∀ (l : List AttrC) {s L}, okAttrList P l → St P s (attrListB l ++ L) →
    ∃ s', freeAttrList s l = some s' ∧ St P s' L
  | [], s, L, _, h => ⟨s, rfl, h⟩
  | a :: l, s, L, hl, h => by
    obtain ⟨oc, on, ov⟩ := hl a (by simp)
    have t := h.touch oc (by intro b hb; simp [attrListB, attrB, hb])
    have hl' : okAttrList P l := fun x hx => hl x (by simp [hx])
    cases hf : a.fromFactory with
    | true =>
      have : attrB a = [] := by
        rw [hf] at oc on ov
        cases hc : a.cell <;> cases hn : a.name <;> cases hv : a.value <;> simp_all [okRef, attrB, refB]
      obtain ⟨s2, e2, h2⟩ := freeAttrList_ok l hl' (h.of_perm (L' := attrListB l ++ L) (by simp [attrListB, this]))
      exact ⟨s2, by simp [freeAttrList, t, hf, e2], h2⟩
    | false =>
      rw [hf] at oc on ov
      obtain ⟨s1, e1, h1⟩ := (h.of_perm (L' := refB a.name ++ (refB a.value ++ (refB a.cell ++ (attrListB l ++ L)))) (by simp only [attrListB, attrB]; perm)).free on
      obtain ⟨s2, e2, h2⟩ := h1.free ov
      obtain ⟨s3, e3, h3⟩ := h2.free oc
      obtain ⟨s4, e4, h4⟩ := freeAttrList_ok l hl' h3
      exact ⟨s4, by simp [freeAttrList, t, hf, e1, e2, e3, e4], h4⟩

theorem freeEntry_ok {P e s L} (he : okEntry P e) (h : St P s (entryB e ++ L)) :
    ∃ s', freeEntry s e = some s' ∧ St P s' L := by
  obtain ⟨s1, e1, h1⟩ := (h.of_perm (L' := refB e.key ++ (refsB e.data ++ L)) (by simp only [entryB]; perm)).freeUnless he.1
  obtain ⟨s2, e2, h2⟩ := freeAll_ok e.data he.2 h1
  exact ⟨s2, by simp [freeEntry, e1, e2], h2⟩

theorem freeEntries_ok {P} : ∀ (l : List Entry) {s L}, okEntries P l → St P s (entriesB l ++ L) →
    ∃ s', freeEntries s l = some s' ∧ St P s' L
  | [], s, L, _, h => ⟨s, rfl, h⟩
  | e :: l, s, L, hl, h => by
    obtain ⟨s1, e1, h1⟩ := freeEntry_ok (hl e (by simp)) (h.of_perm (L' := entryB e ++ (entriesB l ++ L)) (by simp only [entriesB]; perm))
    obtain ⟨s2, e2, h2⟩ := freeEntries_ok l (fun x hx => hl x (by simp [hx])) h1
    exact ⟨s2, by simp [freeEntries, e1, e2], h2⟩

theorem freeHash_ok {P r l s L} (hr : okRef P false r) (hl : okEntries P l) (h : St P s (refB r ++ entriesB l ++ L)) :
    ∃ s', freeHash s r l = some s' ∧ St P s' L := by
  have t := h.touch hr (by intro b hb; simp [hb])
  obtain ⟨s1, e1, h1⟩ := freeEntries_ok l hl (h.of_perm (L' := entriesB l ++ (refB r ++ L)) (by perm))
  obtain ⟨s2, e2, h2⟩ := h1.free hr
  exact ⟨s2, by simp [freeHash, t, e1, e2], h2⟩

theorem freeAttrs_ok {P a s L} (ha : okAttrs P a) (h : St P s (attrsB a ++ L)) :
    ∃ s', freeAttrs s a = some s' ∧ St P s' L := by
  cases a with
  | list l => exact freeAttrList_ok l ha h
  | hash r l => exact freeHash_ok ha.1 ha.2 h

theorem freeOpt_ok {P o s L} (ho : okOpt P o) (h : St P s (optB o ++ L)) :
    ∃ s', freeOpt s o = some s' ∧ St P s' L := by
  cases o with
  | none => exact ⟨s, rfl, h⟩
  | some r => exact h.free ho

theorem freePi_ok {P p s L} (hp : okPi P p) (h : St P s (piB p ++ L)) :
    ∃ s', freePi s p = some s' ∧ St P s' L := by
  obtain ⟨c, n, o⟩ := hp
  have t := h.touch c (by intro b hb; simp [piB, hb])
  obtain ⟨s1, e1, h1⟩ := (h.of_perm (L' := refB p.name ++ (optB p.content ++ (refB p.cell ++ L))) (by simp only [piB]; perm)).free n
  cases hc : p.content with
  | none =>
    rw [hc] at h1
    obtain ⟨s2, e2, h2⟩ := (h1.of_perm (L' := refB p.cell ++ L) (by simp [optB])).free c
    exact ⟨s2, by simp [freePi, t, e1, hc, e2], h2⟩
  | some r =>
    rw [hc] at h1 o
    obtain ⟨s2, e2, h2⟩ := (show St P s1 (refB r ++ (refB p.cell ++ L)) from h1).free o
    obtain ⟨s3, e3, h3⟩ := h2.free c
    exact ⟨s3, by simp [freePi, t, e1, hc, e2, e3], h3⟩

theorem freeLeaf_ok {P l s L} (hl : okLeaf P l) (h : St P s (leafB l ++ L)) :
    ∃ s', freeLeaf s l = some s' ∧ St P s' L := by
  cases l with
  | text k it c t f =>
    obtain ⟨hi, hc, ht⟩ := hl
    have t1 := h.touch hi.1 (by intro b hb; simp [leafB, hb])
    have t2 := h.touch hc (by intro b hb; simp [leafB, hb])
    have h0 := h.of_perm (L' := refB t ++ (refB c ++ (refB it.ref ++ L))) (by simp only [leafB]; perm)
    cases f with
    | true =>
      have e1 : refB t = [] := by cases t <;> simp_all [okRef, refB]
      have e2 : refB c = [] := by cases c <;> simp_all [okRef, refB]
      rw [e1, e2] at h0
      obtain ⟨s3, e3, h3⟩ := (show St P s (refB it.ref ++ L) from h0).freeUnless hi.1
      exact ⟨s3, by simp [freeLeaf, t1, e3], h3⟩
    | false =>
      obtain ⟨s1, e1, h1⟩ := h0.free ht
      obtain ⟨s2, e2, h2⟩ := h1.free hc
      obtain ⟨s3, e3, h3⟩ := h2.freeUnless hi.1
      exact ⟨s3, by simp [freeLeaf, t1, t2, e1, e2, e3], h3⟩
  | pi it p =>
    obtain ⟨hi, hp⟩ := hl
    have t1 := h.touch hi.1 (by intro b hb; simp [leafB, hb])
    obtain ⟨s1, e1, h1⟩ := freePi_ok hp (h.of_perm (L' := piB p ++ (refB it.ref ++ L)) (by simp only [leafB]; perm))
    obtain ⟨s2, e2, h2⟩ := h1.freeUnless hi.1
    exact ⟨s2, by simp [freeLeaf, t1, e1, e2], h2⟩

theorem freeHolder_ok {P o s L} (ho : okHolder P o) (h : St P s (holderB o ++ L)) :
    ∃ s', freeHolder s o = some s' ∧ St P s' L := by
  cases o with
  | none => exact ⟨s, rfl, h⟩
  | some it =>
    have t1 := h.touch ho.1 (by intro b hb; simp [holderB, hb])
    obtain ⟨s2, e2, h2⟩ := (show St P s (refB it.ref ++ L) from h).freeUnless ho.1
    exact ⟨s2, by simp [freeHolder, t1, e2], h2⟩

theorem freeAnnot_ok {P o s L} (ho : okAnnot P o) (h : St P s (annotB o ++ L)) :
    ∃ s', freeAnnot s o = some s' ∧ St P s' L := by
  cases o with
  | none => exact ⟨s, rfl, h⟩
  | some x => exact freeHash_ok ho.1 ho.2 h

mutual
theorem freeNode_ok {P} : ∀ (n : Node) {s L}, okNode P n → St P s (nodeB n ++ L) →
    ∃ s', freeNode s n = some s' ∧ St P s' L
  | .mk h items, s, L, ⟨hh, hi⟩, hs => by
    have t0 := hs.touch hh.self (by intro b hb; simp [nodeB, headB, hb])
    obtain ⟨s1, e1, h1⟩ := (hs.of_perm (L' := refB h.name ++ (attrsB h.attrs ++ (itemsB items ++ (holderB h.holder ++ (refB h.self ++ (annotB h.annot ++ L)))))) (by simp only [nodeB, headB]; perm)).freeUnless hh.name
    obtain ⟨s2, e2, h2⟩ := freeAttrs_ok hh.attrs h1
    obtain ⟨s3, e3, h3⟩ := freeItems_ok items hi h2
    obtain ⟨s4, e4, h4⟩ := freeHolder_ok hh.holder h3
    have t1 := h4.touch hh.self (by intro b hb; simp [hb])
    obtain ⟨s5, e5, h5⟩ := h4.freeUnless hh.self
    obtain ⟨s6, e6, h6⟩ := freeAnnot_ok hh.annot h5
    exact ⟨s6, by simp [freeNode, t0, t1, e1, e2, e3, e4, e5, e6], h6⟩
theorem freeItems_ok {P} : ∀ (l : Items) {s L}, okItems P l → St P s (itemsB l ++ L) →
    ∃ s', freeItems s l = some s' ∧ St P s' L
  | .nil, s, L, _, h => ⟨s, by simp [freeItems], by simpa [itemsB] using h⟩
  | .node n next, s, L, ⟨hn, hh, hl⟩, h => by
    obtain ⟨it, hit⟩ := Option.isSome_iff_exists.mp hh
    have t : s.touch it.ref = some () := by
      cases n with
      | mk hd items =>
        have hd' : hd.holder = some it := hit
        have hok : okItem P it := by have := hn.1.holder; rw [hd'] at this; exact this
        exact h.touch hok.1 (by intro b hb; simp [itemsB, nodeB, headB, hd', holderB, hb])
    obtain ⟨s1, e1, h1⟩ := freeNode_ok n hn (h.of_perm (L' := nodeB n ++ (itemsB next ++ L)) (by simp only [itemsB]; perm))
    obtain ⟨s2, e2, h2⟩ := freeItems_ok next hl h1
    exact ⟨s2, by simp [freeItems, hit, t, e1, e2], h2⟩
  | .leaf l next, s, L, ⟨hn, hl⟩, h => by
    obtain ⟨s1, e1, h1⟩ := freeLeaf_ok hn (h.of_perm (L' := leafB l ++ (itemsB next ++ L)) (by simp only [itemsB]; perm))
    obtain ⟨s2, e2, h2⟩ := freeItems_ok next hl h1
    exact ⟨s2, by simp [freeItems, e1, e2], h2⟩
end

end Axl.Own
