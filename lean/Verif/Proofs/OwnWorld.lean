/-
Proofs for C57: documents and nodes together.
-/
import Verif.Proofs.OwnEdit

namespace Axl.Own
open Spec

/-! More factories, or fewer. -/

theorem okRef_mono {P Q f r} (h : okRef P f r) (hq : ∀ e, Ref.uses e r = true → e ∈ P → e ∈ Q) : okRef Q f r := by
  cases r with
  | own b => exact h
  | pool d => exact ⟨h.1, hq d (by simp [Ref.uses]) h.2⟩

theorem okRef_false {P Q r} (h : okRef P false r) : okRef Q false r := by
  cases r with
  | own b => exact h
  | pool d => simp [okRef] at h

theorem okItem_mono {P Q it} (h : okItem P it) (hq : ∀ e, ItemRec.uses e it = true → e ∈ P → e ∈ Q) : okItem Q it :=
  ⟨okRef_mono h.1 (fun e he => hq e (by simp [ItemRec.uses, he])), fun d hd => hq d (by simp [ItemRec.uses, hd]) (h.2 d hd)⟩

theorem okAttrList_mono {P Q l} (h : okAttrList P l) (hq : ∀ e, l.any (AttrC.uses e) = true → e ∈ P → e ∈ Q) : okAttrList Q l := by
  intro a ha
  obtain ⟨h1, h2, h3⟩ := h a ha
  have : ∀ e, AttrC.uses e a = true → e ∈ P → e ∈ Q := fun e he => hq e (List.any_eq_true.mpr ⟨a, ha, he⟩)
  exact ⟨okRef_mono h1 fun e he => this e (by simp [AttrC.uses, he]), okRef_mono h2 fun e he => this e (by simp [AttrC.uses, he]),
    okRef_mono h3 fun e he => this e (by simp [AttrC.uses, he])⟩

theorem okEntries_mono {P Q l} (h : okEntries P l) (hq : ∀ e, l.any (Entry.uses e) = true → e ∈ P → e ∈ Q) : okEntries Q l := by
  intro a ha
  obtain ⟨h1, h2⟩ := h a ha
  exact ⟨okRef_mono h1 fun e he => hq e (List.any_eq_true.mpr ⟨a, ha, by simp [Entry.uses, he]⟩), fun r hr => okRef_false (h2 r hr)⟩

theorem okAttrs_mono {P Q a} (h : okAttrs P a) (hq : ∀ e, Attrs.uses e a = true → e ∈ P → e ∈ Q) : okAttrs Q a := by
  cases a with
  | list l => exact okAttrList_mono h hq
  | hash r l => exact ⟨okRef_false h.1, okEntries_mono h.2 fun e he => hq e (by simp [Attrs.uses, he])⟩

theorem okOpt_mono {P Q o} (h : okOpt P o) : okOpt Q o := by
  cases o with
  | none => trivial
  | some r => exact okRef_false h

theorem okPi_mono {P Q p} (h : okPi P p) : okPi Q p := ⟨okRef_false h.1, okRef_false h.2.1, okOpt_mono h.2.2⟩

theorem okLeaf_mono {P Q l} (h : okLeaf P l) (hq : ∀ e, Leaf.uses e l = true → e ∈ P → e ∈ Q) : okLeaf Q l := by
  cases l with
  | text k it c t f => exact ⟨okItem_mono h.1 fun e he => hq e (by simp [Leaf.uses, he]), okRef_mono h.2.1 fun e he => hq e (by simp [Leaf.uses, he]),
      okRef_mono h.2.2 fun e he => hq e (by simp [Leaf.uses, he])⟩
  | pi it p => exact ⟨okItem_mono h.1 fun e he => hq e (by simp [Leaf.uses, he]), okPi_mono h.2⟩

theorem okHead_mono {P Q n} (h : okHead P n) (hq : ∀ e, Head.uses e n = true → e ∈ P → e ∈ Q) : okHead Q n := by
  refine ⟨okRef_mono h.self fun e he => hq e (by simp [Head.uses, he]), okRef_mono h.name fun e he => hq e (by simp [Head.uses, he]),
    okAttrs_mono h.attrs fun e he => hq e (by simp [Head.uses, he]), ?_, ?_⟩
  · have h1 := h.annot
    cases ha : n.annot with
    | none => trivial
    | some x =>
      rw [ha] at h1
      exact ⟨okRef_false h1.1, okEntries_mono h1.2 fun e he => hq e (by simp only [Head.uses, ha, Option.any_some, he, Bool.or_true, Bool.true_or])⟩
  · have h1 := h.holder
    cases ha : n.holder with
    | none => trivial
    | some x =>
      rw [ha] at h1
      exact okItem_mono h1 fun e he => hq e (by simp [Head.uses, ha, he])

mutual
theorem okNode_mono {P Q} : ∀ {n}, okNode P n → (∀ e, Node.uses e n = true → e ∈ P → e ∈ Q) → okNode Q n
  | .mk h items, hn, hq => ⟨okHead_mono hn.1 fun e he => hq e (by simp [Node.uses, he]), okItems_mono hn.2 fun e he => hq e (by simp [Node.uses, he])⟩
theorem okItems_mono {P Q} : ∀ {n}, okItems P n → (∀ e, Items.uses e n = true → e ∈ P → e ∈ Q) → okItems Q n
  | .nil, _, _ => trivial
  | .node n next, hn, hq => ⟨okNode_mono hn.1 fun e he => hq e (by simp [Items.uses, he]), hn.2.1, okItems_mono hn.2.2 fun e he => hq e (by simp [Items.uses, he])⟩
  | .leaf n next, hn, hq => ⟨okLeaf_mono hn.1 fun e he => hq e (by simp [Items.uses, he]), okItems_mono hn.2 fun e he => hq e (by simp [Items.uses, he])⟩
end

/-! Documents. -/

def rootB : Option Node → List Nat
  | none => []
  | some n => nodeB n

def okRoot (P : List Nat) : Option Node → Prop
  | none => True
  | some n => okNode P n

def pisB : List PiRec → List Nat
  | [] => []
  | p :: l => piB p ++ pisB l

/-- The blocks of a document but those of its tree. -/
def docFixB (c : DocRec) : List Nat :=
  refB c.self ++ optB c.parentNode ++ refB c.piTargets ++ refB c.xmlPreserve ++ refB c.itemFactory ++ refB c.nodeFactory ++
    refB c.contentFactory ++ refB c.attrFactory ++ refB c.strFactory ++ pisB c.pis ++ optB c.version ++ optB c.encoding

def docB : Option DocRec → List Nat
  | none => []
  | some c => docFixB c ++ rootB c.root

structure okFix (c : DocRec) : Prop where
  self : okRef [] false c.self
  parentNode : okOpt [] c.parentNode
  piTargets : okRef [] false c.piTargets
  xmlPreserve : okRef [] false c.xmlPreserve
  itemFactory : okRef [] false c.itemFactory
  nodeFactory : okRef [] false c.nodeFactory
  contentFactory : okRef [] false c.contentFactory
  attrFactory : okRef [] false c.attrFactory
  strFactory : okRef [] false c.strFactory
  pis : ∀ p ∈ c.pis, okPi [] p
  version : okOpt [] c.version
  encoding : okOpt [] c.encoding

theorem allocIf_ok {P s L b} (h : St P s L) : okOpt P (allocIf s b).2 ∧ St P (allocIf s b).1 (optB (allocIf s b).2 ++ L) := by
  cases b with
  | false => exact ⟨trivial, h⟩
  | true => exact ⟨h.alloc.2, h.alloc.1⟩

theorem newDoc_ok {P s L d v e} (h : St P s L) :
    okFix (newDoc s d v e).2 ∧ (newDoc s d v e).2.root = none ∧ (newDoc s d v e).2.pis = [] ∧
      St (d :: P) (newDoc s d v e).1 (docFixB (newDoc s d v e).2 ++ L) := by
  obtain ⟨h1, o1⟩ := h.alloc
  obtain ⟨h2, o2⟩ := h1.alloc
  obtain ⟨h3, o3⟩ := h2.alloc
  obtain ⟨h4, o4⟩ := h3.alloc
  obtain ⟨h5, o5⟩ := h4.alloc
  obtain ⟨h6, o6⟩ := h5.alloc
  obtain ⟨h7, o7⟩ := h6.alloc
  obtain ⟨h8, o8⟩ := h7.alloc
  obtain ⟨h9, o9⟩ := h8.alloc
  have h10 : St (d :: P) { s.alloc.1.alloc.1.alloc.1.alloc.1.alloc.1.alloc.1.alloc.1.alloc.1.alloc.1 with
      pools := d :: s.alloc.1.alloc.1.alloc.1.alloc.1.alloc.1.alloc.1.alloc.1.alloc.1.alloc.1.pools } _ :=
    ⟨by simp [h9.pools], h9.perm, h9.nodup, h9.bound⟩
  obtain ⟨o11, h11⟩ := allocIf_ok (b := v) h10
  obtain ⟨o12, h12⟩ := allocIf_ok (b := e) h11
  refine ⟨⟨okRef_false o1, (okRef_false o2 : okRef [] false _), okRef_false o3, okRef_false o4, okRef_false o5, okRef_false o6, okRef_false o7, okRef_false o8, okRef_false o9, by simp [newDoc], okOpt_mono o11, okOpt_mono o12⟩, rfl, rfl, ?_⟩
  refine h12.of_perm ?_
  simp only [docFixB, newDoc, optB, pisB]; perm

theorem freePis_ok {P} : ∀ (l : List PiRec) {s L}, (∀ p ∈ l, okPi P p) → St P s (pisB l ++ L) → ∃ s', freePis s l = some s' ∧ St P s' L
  | [], s, L, _, h => ⟨s, rfl, h⟩
  | p :: l, s, L, hl, h => by
    obtain ⟨s1, e1, h1⟩ := freePi_ok (hl p (by simp)) (h.of_perm (L' := piB p ++ (pisB l ++ L)) (by simp only [pisB]; perm))
    obtain ⟨s2, e2, h2⟩ := freePis_ok l (fun q hq => hl q (by simp [hq])) h1
    exact ⟨s2, by simp [freePis, e1, e2], h2⟩

theorem freeDoc_ok {P s L d c} (hc : okFix c) (hr : okRoot P c.root) (h : St P s (docFixB c ++ rootB c.root ++ L)) :
    ∃ s', freeDoc s d c = some s' ∧ St (P.erase d) s' L := by
  have t0 := h.touch (okRef_false hc.self) (by intro b hb; simp [docFixB, hb])
  have hroot : ∃ s', (match c.root with | none => some s | some n => freeNode s n) = some s' ∧ St P s' (docFixB c ++ L) := by
    cases hq : c.root with
    | none => exact ⟨s, rfl, h.of_perm (by rw [hq]; simp only [rootB]; perm)⟩
    | some n =>
      rw [hq] at hr
      exact freeNode_ok n hr (h.of_perm (by rw [hq]; simp only [rootB]; perm))
  obtain ⟨s1, e1, h1⟩ := hroot
  obtain ⟨s2, e2, h2⟩ := freeOpt_ok (P := P) (okOpt_mono hc.parentNode) (h1.of_perm (L' := optB c.parentNode ++ (refB c.xmlPreserve ++ (refB c.itemFactory ++ (refB c.contentFactory ++ (refB c.attrFactory ++ (refB c.nodeFactory ++ (refB c.strFactory ++ (pisB c.pis ++ (refB c.piTargets ++ (optB c.encoding ++ (optB c.version ++ (refB c.self ++ L)))))))))))) (by simp only [docFixB]; perm))
  obtain ⟨s3, e3, h3⟩ := h2.free (okRef_false hc.xmlPreserve)
  have h3' : St (P.erase d) { s3 with pools := s3.pools.erase d } _ := ⟨by simp [h3.pools], h3.perm, h3.nodup, h3.bound⟩
  obtain ⟨s4, e4, h4⟩ := h3'.free (okRef_false hc.itemFactory)
  obtain ⟨s5, e5, h5⟩ := h4.free (okRef_false hc.contentFactory)
  obtain ⟨s6, e6, h6⟩ := h5.free (okRef_false hc.attrFactory)
  obtain ⟨s7, e7, h7⟩ := h6.free (okRef_false hc.nodeFactory)
  obtain ⟨s8, e8, h8⟩ := h7.free (okRef_false hc.strFactory)
  obtain ⟨s9, e9, h9⟩ := freePis_ok c.pis (fun p hp => okPi_mono (hc.pis p hp)) h8
  obtain ⟨s10, e10, h10⟩ := h9.free (okRef_false hc.piTargets)
  obtain ⟨s11, e11, h11⟩ := freeOpt_ok (okOpt_mono hc.encoding) h10
  obtain ⟨s12, e12, h12⟩ := freeOpt_ok (okOpt_mono hc.version) h11
  obtain ⟨s13, e13, h13⟩ := h12.free (okRef_false hc.self)
  refine ⟨s13, ?_, h13⟩
  simp only [freeDoc, t0, Option.bind_eq_bind, Option.bind_some]
  cases hq : c.root <;> rw [hq] at e1 <;> simp only at e1 <;> (try cases e1) <;>
    simp [*]

theorem parsePis_ok {P} : ∀ (l : List Bool) {s L}, St P s L → (∀ p ∈ (parsePis s l).2, okPi P p) ∧ St P (parsePis s l).1 (pisB (parsePis s l).2 ++ L)
  | [], s, L, h => ⟨by simp [parsePis], h⟩
  | b :: l, s, L, h => by
    obtain ⟨o1, h1⟩ := newPi_ok (c := b) h
    obtain ⟨o2, h2⟩ := parsePis_ok l h1
    refine ⟨?_, h2.of_perm (by simp only [parsePis, pisB]; perm)⟩
    intro p hp
    simp only [parsePis, List.mem_cons] at hp
    rcases hp with rfl | hp
    · exact o1
    · exact o2 p hp

/-! The world. -/

/-- The blocks of all the documents and nodes. -/
def worldB (w : World) : List Nat := w.docs.flatMap docB ++ w.loose.flatMap rootB

/-- Every block is owned by one document or node, but those of `X`, which are on their way; the flags
tell the truth; the documents that are there have their factories. -/
structure WF (w : World) (X : List Nat) : Prop where
  st : St w.store.pools w.store (worldB w ++ X)
  docs : ∀ (d : Nat) (c : DocRec), w.docs[d]? = some (some c) → okFix c ∧ okRoot w.store.pools c.root
  loose : ∀ (k : Nat) (n : Node), w.loose[k]? = some (some n) → okNode w.store.pools n
  pools : ∀ d, d ∈ w.store.pools ↔ ∃ c, w.docs[d]? = some (some c)
  nodup : w.store.pools.Nodup

theorem set_flat {α} {f : α → List Nat} : ∀ (l : List α) (k : Nat) (x y : α), l[k]? = some x →
    (f x ++ (l.set k y).flatMap f).Perm (f y ++ l.flatMap f)
  | [], k, x, y, h => by simp at h
  | a :: l, 0, x, y, h => by
    simp only [List.getElem?_cons_zero, Option.some.injEq] at h; subst h
    simp only [List.set_cons_zero, List.flatMap_cons]; perm
  | a :: l, k + 1, x, y, h => by
    have := set_flat (f := f) l k x y (by simpa using h)
    simp only [List.set_cons_succ, List.flatMap_cons]
    have h1 : (f x ++ (f a ++ (l.set k y).flatMap f)).Perm (f a ++ (f x ++ (l.set k y).flatMap f)) := by perm
    refine h1.trans ((this.append_left _).trans ?_)
    perm

/-- The place can hold a tree. -/
def slot (w : World) : Where → Prop
  | .doc d => ∃ c, w.docs[d]? = some (some c)
  | .loose k => k < w.loose.length

theorem slot_of_tree {w : World} {t n} (h : w.tree t = some n) : slot w t := by
  cases t with
  | doc d =>
    simp only [World.tree] at h
    obtain ⟨c, hc, _⟩ := Option.bind_eq_some_iff.mp h
    cases hq : w.docs[d]? with
    | none => rw [hq] at hc; simp at hc
    | some o => rw [hq] at hc; simp at hc; subst hc; exact ⟨c, hq⟩
  | loose k =>
    simp only [World.tree] at h
    cases hq : w.loose[k]? with
    | none => rw [hq] at h; simp at h
    | some o => obtain ⟨hk, _⟩ := List.getElem?_eq_some_iff.mp hq; exact hk

theorem putTree_store {w : World} {t y} : (w.putTree t y).store = w.store := by
  unfold World.putTree; split <;> (try split) <;> rfl

theorem putTree_withStore {w : World} {t y s} : ({ w with store := s } : World).putTree t y = { w.putTree t y with store := s } := by
  cases t with
  | loose k => rfl
  | doc d => cases h : w.docs[d]?.join <;> simp [World.putTree, h]

theorem worldB_withStore {w : World} {s} : worldB { w with store := s } = worldB w := rfl

theorem worldB_put {w : World} {t y} (hs : slot w t) :
    (rootB (w.tree t) ++ worldB (w.putTree t y)).Perm (rootB y ++ worldB w) := by
  cases t with
  | doc d =>
    obtain ⟨c, hc⟩ := hs
    have := set_flat (f := docB) w.docs d (some c) (some { c with root := y }) hc
    have ht : w.tree (.doc d) = c.root := by simp [World.tree, hc]
    have hp : w.putTree (.doc d) y = { w with docs := w.docs.set d (some { c with root := y }) } := by simp [World.putTree, hc]
    rw [ht, hp]
    simp only [worldB]
    have hb : docB (some { c with root := y }) = docFixB c ++ rootB y := rfl
    have hb' : docB (some c) = docFixB c ++ rootB c.root := rfl
    rw [hb, hb'] at this
    refine List.perm_iff_count.mpr fun a => ?_
    have := List.perm_iff_count.mp this a
    simp only [List.count_append] at *
    omega
  | loose k =>
    have hk : w.loose[k]? = some w.loose[k] := List.getElem?_eq_some_iff.mpr ⟨hs, rfl⟩
    have := set_flat (f := rootB) w.loose k _ y hk
    have ht : w.tree (.loose k) = w.loose[k] := by simp [World.tree, hk]
    rw [ht]
    simp only [worldB, World.putTree]
    refine List.perm_iff_count.mpr fun a => ?_
    have := List.perm_iff_count.mp this a
    simp only [List.count_append] at *
    omega

theorem WF.tree {w X t n} (h : WF w X) (ht : w.tree t = some n) : okNode w.store.pools n := by
  cases t with
  | doc d =>
    simp only [World.tree] at ht
    obtain ⟨c, hc, hr⟩ := Option.bind_eq_some_iff.mp ht
    cases hq : w.docs[d]? with
    | none => rw [hq] at hc; simp at hc
    | some o =>
      rw [hq] at hc; simp at hc; subst hc
      have := (h.docs d c hq).2
      rw [hr] at this; exact this
  | loose k =>
    simp only [World.tree] at ht
    cases hq : w.loose[k]? with
    | none => rw [hq] at ht; simp at ht
    | some o => rw [hq] at ht; simp at ht; subst ht; exact h.loose k n hq

/-- Another tree in a place. -/
theorem WF.put {w X X' t y s} (h : WF w X) (hs : slot w t) (hy : okRoot w.store.pools y)
    (hst : St w.store.pools s (worldB (w.putTree t y) ++ X')) : WF ({ w with store := s }.putTree t y) X' := by
  have hp : s.pools = w.store.pools := hst.pools
  rw [putTree_withStore]
  refine ⟨?_, ?_, ?_, ?_, ?_⟩
  · show St s.pools s _
    rw [hp]; exact hst
  · intro d c hc
    show okFix c ∧ okRoot s.pools c.root
    rw [hp]
    cases t with
    | loose k => exact h.docs d c hc
    | doc e =>
      obtain ⟨c0, hc0⟩ := hs
      simp only [World.putTree, hc0, Option.join_some] at hc
      rw [List.getElem?_set] at hc
      by_cases hed : e = d
      · subst hed
        rw [if_pos rfl] at hc
        split at hc
        · simp only [Option.some.injEq] at hc; subst hc
          have := (h.docs e c0 hc0).1
          exact ⟨⟨this.self, this.parentNode, this.piTargets, this.xmlPreserve, this.itemFactory, this.nodeFactory, this.contentFactory, this.attrFactory, this.strFactory, this.pis, this.version, this.encoding⟩, hy⟩
        · simp at hc
      · rw [if_neg hed] at hc
        exact h.docs d c hc
  · intro k n hn
    show okNode s.pools n
    rw [hp]
    cases t with
    | doc e =>
      obtain ⟨c0, hc0⟩ := hs
      simp only [World.putTree, hc0, Option.join_some] at hn
      exact h.loose k n hn
    | loose e =>
      simp only [World.putTree] at hn
      rw [List.getElem?_set] at hn
      by_cases hek : e = k
      · subst hek
        rw [if_pos rfl] at hn
        split at hn
        · simp only [Option.some.injEq] at hn; subst hn; exact hy
        · simp at hn
      · rw [if_neg hek] at hn
        exact h.loose k n hn
  · intro d
    show d ∈ s.pools ↔ _
    rw [hp, h.pools d]
    cases t with
    | loose k => rfl
    | doc e =>
      obtain ⟨c0, hc0⟩ := hs
      simp only [World.putTree, hc0, Option.join_some]
      rw [List.getElem?_set]
      by_cases hed : e = d
      · subst hed
        have := (List.getElem?_eq_some_iff.mp hc0).1
        rw [if_pos rfl, if_pos this]
        exact ⟨fun _ => ⟨_, rfl⟩, fun _ => ⟨c0, hc0⟩⟩
      · rw [if_neg hed]
  · show s.pools.Nodup
    rw [hp]; exact h.nodup

/-- Taking a tree out of its place. -/
theorem WF.take {w X t n} (h : WF w X) (ht : w.tree t = some n) : WF (w.putTree t none) (nodeB n ++ X) := by
  have hs := slot_of_tree ht
  have hp := worldB_put (y := none) hs
  rw [ht] at hp
  have := WF.put (X' := nodeB n ++ X) (s := w.store) h hs (y := none) trivial (h.st.of_perm (by
    refine List.perm_iff_count.mpr fun a => ?_
    have := List.perm_iff_count.mp hp a
    simp only [List.count_append, rootB, List.count_nil] at *
    omega))
  exact this

theorem tree_put_self {w : World} {t y} (hs : slot w t) : (w.putTree t y).tree t = y := by
  cases t with
  | doc d =>
    obtain ⟨c, hc⟩ := hs
    have := (List.getElem?_eq_some_iff.mp hc).1
    simp only [World.putTree, hc, Option.join_some, World.tree]
    rw [List.getElem?_set_self this]; rfl
  | loose k =>
    have : k < w.loose.length := hs
    simp [World.putTree, World.tree, this]

theorem tree_put_other {w : World} {t u y} (htu : t ≠ u) : (w.putTree t y).tree u = w.tree u := by
  cases t with
  | doc d =>
    simp only [World.putTree]
    split
    · cases u with
      | doc e =>
        have : d ≠ e := fun he => htu (by rw [he])
        simp [World.tree, List.getElem?_set, this]
      | loose k => rfl
    · rfl
  | loose k =>
    simp only [World.putTree]
    cases u with
    | doc e => rfl
    | loose e =>
      have : k ≠ e := fun he => htu (by rw [he])
      simp [World.tree, List.getElem?_set, this]

theorem slot_put {w : World} {t u y} (hs : slot w u) : slot (w.putTree t y) u := by
  cases t with
  | loose k =>
    simp only [World.putTree]
    cases u with
    | doc e => exact hs
    | loose e => simpa [slot] using hs
  | doc d =>
    simp only [World.putTree]
    split
    · cases u with
      | loose e => exact hs
      | doc e =>
        obtain ⟨c, hc⟩ := hs
        simp only [slot, List.getElem?_set]
        by_cases hde : d = e
        · subst hde
          have := (List.getElem?_eq_some_iff.mp hc).1
          exact ⟨_, by simp [this]; rfl⟩
        · exact ⟨c, by rw [if_neg hde]; exact hc⟩
    · exact hs

/-- A call on the node at a place. -/
theorem WF.edit {w X l O f pre I} (h : WF w (I ++ X)) (hf : Works w.store.pools O f pre I) (hn : ∃ m, w.node l = some m ∧ pre m) :
    ∃ w' out, w.edit l f = some (w', out) ∧ O out ∧ WF w' (itemsB out ++ X) ∧ w'.store.pools = w.store.pools ∧
      (∀ u, u ≠ l.tree → w'.tree u = w.tree u) ∧
      ∃ n s n', w.tree l.tree = some n ∧ editNode f w.store n l.path = some (s, n', out) ∧ w'.tree l.tree = some n' := by
  obtain ⟨m, hm, hp⟩ := hn
  simp only [World.node] at hm
  obtain ⟨n, ht, hm⟩ := Option.bind_eq_some_iff.mp hm
  have hs := slot_of_tree ht
  have hpt := fun y => worldB_put (y := y) hs
  rw [ht] at hpt
  obtain ⟨s', n', out, e, o, oo, hst, hh⟩ := editNode_ok hf l.path n (s := w.store) (L := worldB (w.putTree l.tree none) ++ X) (h.tree ht) ⟨m, hm, hp⟩ (h.st.of_perm (by
    refine List.perm_iff_count.mpr fun a => ?_
    have := List.perm_iff_count.mp (hpt none) a
    simp only [List.count_append, rootB, List.count_nil] at *
    omega))
  have hw : WF ({ w with store := s' }.putTree l.tree (some n')) (itemsB out ++ X) := by
    refine h.put hs o (hst.of_perm ?_)
    refine List.perm_iff_count.mpr fun a => ?_
    have h1 := List.perm_iff_count.mp (hpt none) a
    have h2 := List.perm_iff_count.mp (hpt (some n')) a
    simp only [List.count_append, rootB, List.count_nil] at *
    omega
  refine ⟨_, out, by simp [World.edit, ht, e], oo, hw, ?_, ?_, ?_⟩
  · rw [putTree_store]; exact hst.pools
  · intro u hu
    exact tree_put_other (w := { w with store := s' }) (Ne.symm hu)
  · exact ⟨n, s', n', ht, e, tree_put_self (w := { w with store := s' }) (by cases hl : l.tree <;> rw [hl] at hs <;> exact hs)⟩

theorem WF.edit' {w X l f pre I} (h : WF w (I ++ X)) (hf : Works w.store.pools (· = .nil) f pre I) (hn : ∃ m, w.node l = some m ∧ pre m) :
    ∃ w', w.edit' l f = some w' ∧ WF w' X := by
  obtain ⟨w', out, e, oo, hw, _⟩ := h.edit hf hn
  refine ⟨w', by simp [World.edit', e], ?_⟩
  subst oo; exact hw

theorem WF.addLoose {w X n} (h : WF w (nodeB n ++ X)) (hn : okNode w.store.pools n) : WF (w.addLoose n) X := by
  refine ⟨h.st.of_perm ?_, h.docs, ?_, h.pools, h.nodup⟩
  · simp only [worldB, World.addLoose, List.flatMap_append, List.flatMap_cons, List.flatMap_nil, rootB]; perm
  · intro k m hm
    simp only [World.addLoose, List.getElem?_append] at hm
    split at hm
    · exact h.loose k m hm
    · have : k - w.loose.length = 0 := by
        apply Classical.byContradiction
        intro hne
        rw [List.getElem?_eq_none (by simp; omega)] at hm
        simp at hm
      rw [this] at hm
      simp at hm; subst hm; exact hn

theorem WF.withStore {w X X' s} (h : WF w X) (hs : St w.store.pools s (worldB w ++ X')) : WF { w with store := s } X' := by
  have hp : s.pools = w.store.pools := hs.pools
  refine ⟨?_, ?_, ?_, ?_, ?_⟩
  · show St s.pools s _; rw [hp]; exact hs
  · intro d c hc; show _ ∧ okRoot s.pools _; rw [hp]; exact h.docs d c hc
  · intro k n hn; show okNode s.pools n; rw [hp]; exact h.loose k n hn
  · intro d; show d ∈ s.pools ↔ _; rw [hp]; exact h.pools d
  · show s.pools.Nodup; rw [hp]; exact h.nodup

theorem WF.drop {w X out b} (h : WF w (itemsB out ++ X)) (ho : okOut w.store.pools out) (hs : single out) :
    ∃ w', w.drop b out = some w' ∧ WF w' X := by
  match out, ho, hs with
  | .nil, _, _ => exact ⟨w, rfl, h⟩
  | .leaf l next, ho, hs =>
    have : next = .nil := hs
    subst this
    obtain ⟨s, e, hs⟩ := freeLeaf_ok ho.1 (h.st.of_perm (L' := leafB l ++ (worldB w ++ X)) (by simp only [itemsB]; perm))
    exact ⟨_, by simp [World.drop, e], h.withStore hs⟩
  | .node n next, ho, hs =>
    have : next = .nil := hs
    subst this
    cases b with
    | true =>
      obtain ⟨s, e, hs⟩ := freeNode_ok n ho.1 (h.st.of_perm (L' := nodeB n ++ (worldB w ++ X)) (by simp only [itemsB]; perm))
      exact ⟨_, by simp [World.drop, e], h.withStore hs⟩
    | false =>
      refine ⟨_, by simp [World.drop], WF.addLoose (n := n) (X := X) ⟨h.st.of_perm ?_, h.docs, h.loose, h.pools, h.nodup⟩ ho.1⟩
      simp only [itemsB]; perm

end Axl.Own
