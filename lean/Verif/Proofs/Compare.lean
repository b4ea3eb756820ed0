/-
Proofs about `Verif.Model.Compare`.
-/
import Verif.Model.Compare
import Verif.Spec.Compare
import Verif.Proofs.AttrMade
import Verif.Proofs.Str
import Verif.Spec.Dump

namespace Axl
open Str Spec.Str Spec.Compare Spec.Attr

theorem perm_of_subset {α : Type} [DecidableEq α] : ∀ {xs ys : List α}, xs.Nodup → (∀ x ∈ xs, x ∈ ys) →
    ys.length ≤ xs.length → xs.Perm ys
  | [], ys, _, _, h => by
    have : ys = [] := List.eq_nil_of_length_eq_zero (by simpa using h)
    rw [this]
  | x :: xs, ys, hd, hs, hl => by
    rw [List.nodup_cons] at hd
    have hx : x ∈ ys := hs x (by simp)
    refine List.Perm.trans (List.Perm.cons x (perm_of_subset (ys := ys.erase x) hd.2 ?_ ?_)) (List.perm_cons_erase hx).symm
    · intro z hz
      have : z ≠ x := by rintro rfl; exact hd.1 hz
      exact (List.mem_erase_of_ne this).2 (hs z (by simp [hz]))
    · rw [List.length_erase_of_mem hx]
      simp only [List.length_cons] at hl
      omega

namespace Attrs

theorem find_mem {ps : Pairs} (hd : (ps.map (·.1)).Nodup) {p : List Char × List Char} (hp : p ∈ ps) :
    ps.find? (fun q => q.1 == p.1) = some p := by
  induction ps with
  | nil => simp at hp
  | cons q ps ih =>
    rw [List.map_cons, List.nodup_cons] at hd
    rcases List.mem_cons.1 hp with rfl | hp
    · simp
    · have : q.1 ≠ p.1 := fun e => hd.1 (e ▸ List.mem_map.2 ⟨p, hp, rfl⟩)
      rw [List.find?_cons_of_neg (by simpa using this), ih hd.2 hp]

theorem nodup_of_keys {ps : Pairs} (hd : (ps.map (·.1)).Nodup) : ps.Nodup :=
  List.Pairwise.imp (fun h e => h (congrArg Prod.fst e)) (List.pairwise_map.1 hd)

/-- The same pairs, in any order, seen through the lookups. -/
theorem same_iff {ps qs : Pairs} (hp : (ps.map (·.1)).Nodup) (hq : (qs.map (·.1)).Nodup) :
    (ps.length = qs.length ∧ ∀ p ∈ ps, p ∈ qs) ↔
      (ps.length = qs.length ∧ ∀ k, (ps.find? fun p => p.1 == k).map (·.2) = (qs.find? fun p => p.1 == k).map (·.2)) := by
  constructor
  · rintro ⟨hl, hs⟩
    have := perm_of_subset (nodup_of_keys hp) hs (by omega)
    exact ⟨hl, fun k => by rw [find?_key_perm k this hp]⟩
  · rintro ⟨hl, hk⟩
    refine ⟨hl, fun p h => ?_⟩
    have h1 := hk p.1
    rw [find_mem hp h] at h1
    cases e : qs.find? fun q => q.1 == p.1 with
    | none => rw [e] at h1; simp at h1
    | some q =>
      rw [e] at h1
      have h2 : q.1 = p.1 := by simpa using List.find?_some e
      have h3 : p.2 = q.2 := by simpa using h1
      have : p = q := Prod.ext h2.symm h3
      exact this ▸ List.mem_of_find?_eq_some e

theorem sameAttrs_iff {a b : Attrs} {ps qs : Pairs} (ha : Rep a ps) (hb : Rep b qs) :
    SameAttrs a b ↔ ps.length = qs.length ∧ ∀ p ∈ ps, p ∈ qs := by
  rw [same_iff ha.1 hb.1]
  constructor
  · rintro ⟨h1, h2⟩
    rw [rep_numAttributes ha, rep_numAttributes hb] at h1
    refine ⟨by simpa using h1, fun k => ?_⟩
    have := h2 k
    rw [(rep_find ha k).2, (rep_find hb k).2] at this
    simpa using this
  · rintro ⟨h1, h2⟩
    exact ⟨by rw [rep_numAttributes ha, rep_numAttributes hb, h1], fun k => by
      rw [(rep_find ha k).2, (rep_find hb k).2, h2 k]⟩

theorem listFound_iff (x : Attr) (l : List Attr) : listFound x l = true ↔ kv x ∈ l.map kv := by
  induction l with
  | nil => simp [listFound]
  | cons y ys ih =>
    rw [listFound, cmp_beq, cmp_beq, List.map_cons, List.mem_cons, ← ih]
    by_cases h : kv x = kv y
    · simp only [kv, Prod.mk.injEq] at h
      simp [h.1, h.2, kv]
    · have : (y.name == x.name && y.value == x.value) = false := by
        rw [Bool.and_eq_false_iff]
        simp only [kv, Prod.mk.injEq, not_and] at h
        by_cases hn : x.name = y.name
        · right; simpa using fun e => h hn e.symm
        · left; simpa using fun e => hn e.symm
      simp [this, h]

theorem listIsEqual_iff (l m : List Attr) : listIsEqual l m = true ↔ ∀ p ∈ l.map kv, p ∈ m.map kv := by
  induction l with
  | nil => simp [listIsEqual]
  | cons x xs ih =>
    rw [listIsEqual, List.map_cons, List.forall_mem_cons, ← ih, ← listFound_iff]
    cases listFound x m <;> simp

theorem hashIsEqual_spec {h : H} {qs : Pairs} (hr : HRep h qs) (hd : (qs.map (·.1)).Nodup) (ps : Pairs) :
    ∃ r, hashIsEqual h (ps.map sp) = some r ∧ (r = true ↔ ∀ p ∈ ps, p ∈ qs) := by
  induction ps with
  | nil => exact ⟨true, rfl, by simp⟩
  | cons p ps ih =>
    obtain ⟨r, e, hr'⟩ := ih
    simp only [List.map_cons, sp, hashIsEqual, (hr.lookup hd p.1).2]
    by_cases hp : p ∈ qs
    · refine ⟨r, ?_, by rw [hr']; simp [hp]⟩
      rw [find_mem hd hp]
      simp only [Option.map_some, cmp_beq, beq_self_eq_true, if_true]
      exact e
    · refine ⟨false, ?_, by simp [hp]⟩
      cases e : qs.find? fun q => q.1 == p.1 with
      | none => simp [cmp]
      | some q =>
        have h1 : q.1 = p.1 := by simpa using List.find?_some e
        have h2 : q ∈ qs := List.mem_of_find?_eq_some e
        have h3 : p.2 ≠ q.2 := fun e => hp (by rw [show p = q from Prod.ext h1.symm e]; exact h2)
        simp only [Option.map_some, cmp_beq]
        rw [if_neg (by simpa using h3)]

theorem areEqual_spec {a b : Attrs} {ps qs : Pairs} (ha : Rep a ps) (hb : Rep b qs) :
    ∃ r, a.areEqual b = some r ∧ (r = true ↔ SameAttrs a b) := by
  rw [sameAttrs_iff ha hb]
  unfold areEqual
  have la := rep_length ha
  have lb := rep_length hb
  rw [rep_has ha, rep_has hb]
  cases ps with
  | nil => cases qs <;> simp
  | cons p ps =>
    cases qs with
    | nil => simp
    | cons q qs =>
      simp only [List.isEmpty_cons, Bool.not_false, Bool.and_self, if_true]
      by_cases hn : a.num = b.num
      · rw [if_neg (by simpa using hn)]
        have hl : (p :: ps).length = (q :: qs).length := by omega
        have hda := ha.1
        have hdb := hb.1
        obtain ⟨_, ha⟩ := ha
        obtain ⟨_, hb⟩ := hb
        obtain ⟨na, pa⟩ := a
        obtain ⟨nb, pb⟩ := b
        simp only at hn la lb ha hb ⊢
        cases pa with
        | list l =>
          simp only at ha
          cases pb with
          | list m =>
            simp only at hb
            rw [if_pos (by omega)]
            refine ⟨_, rfl, ?_⟩
            rw [listIsEqual_iff]
            constructor
            · intro h
              exact ⟨hl, fun z hz => hb.2.2.subset (h z (ha.2.2.symm.subset hz))⟩
            · rintro ⟨_, h⟩ z hz
              exact hb.2.2.symm.subset (h z (ha.2.2.subset hz))
          | hash h2 => simp only at hb; exfalso; omega
        | hash h1 =>
          simp only at ha
          cases pb with
          | list m => simp only at hb; exfalso; omega
          | hash h2 =>
            simp only at hb
            rw [if_neg (by omega)]
            dsimp only
            rw [ha.1.foreachAll]
            obtain ⟨_, hperm⟩ := ha.1.table
            obtain ⟨r, e, hr⟩ := hashIsEqual_spec hb.1 hdb (tablePairs h1)
            refine ⟨r, e, ?_⟩
            rw [hr]
            constructor
            · intro h
              exact ⟨hl, fun z hz => h z (hperm.symm.subset hz)⟩
            · rintro ⟨_, h⟩ z hz
              exact h z (hperm.subset hz)
      · rw [if_pos (by simpa using hn)]
        refine ⟨false, rfl, ?_⟩
        simp only [Bool.false_eq_true, false_iff, not_and]
        intro h; omega

end Attrs

theorem toStr_plain {s : List Char} (h : NUL ∉ s) : toStr s = s := by
  have := List.takeWhile_append_of_pos (p := fun c => decide (c ≠ NUL)) (l₁ := s) (l₂ := []) (by
    intro c hc
    have : c ≠ NUL := by rintro rfl; exact h hc
    simpa using this)
  simpa [toStr] using this

theorem toStr_append {s t : List Char} (h : NUL ∉ s) : toStr (s ++ NUL :: t) = s := by
  unfold toStr
  rw [List.takeWhile_append_of_pos (by
    intro c hc
    have : c ≠ NUL := by rintro rfl; exact h hc
    simpa using this)]
  simp

theorem trimCopy_spec {s : List Char} (h : NUL ∉ s) : ∃ t, trimCopy s = some t ∧ Trimmed s t := by
  obtain ⟨t, h1, h2⟩ := trimWithSize_spec s [] h
  refine ⟨t, ?_, h1⟩
  have ht : NUL ∉ t := by
    obtain ⟨l, r, e, _⟩ := h1
    intro h'; apply h; rw [e]; simp [h']
  simp only [trimCopy, toStr_plain h]
  rw [h2]
  simp only [toStr_append ht]

theorem text_spec (trimmed : Bool) {s t : List Char} (hs : NUL ∉ s) (ht : NUL ∉ t) :
    ∃ r, textAreEqual trimmed s t = some r ∧ (r = true ↔ SameText trimmed s t) := by
  cases trimmed with
  | false =>
    simp only [textAreEqual, SameText, Bool.not_false, if_true, toStr_plain hs, toStr_plain ht, Attrs.cmp_beq]
    by_cases h : s = t
    · subst h; exact ⟨true, by simp, by simp⟩
    · refine ⟨false, ?_, by simp [h]⟩
      by_cases hl : s.length ≠ t.length
      · rw [if_pos hl]
      · rw [if_neg hl]; simpa using h
  | true =>
    obtain ⟨u, e1, h1⟩ := trimCopy_spec hs
    obtain ⟨v, e2, h2⟩ := trimCopy_spec ht
    simp only [textAreEqual, SameText, e1, e2, Attrs.cmp_beq]
    refine ⟨u == v, by simp, ?_⟩
    rw [beq_iff_eq]
    constructor
    · rintro rfl; exact ⟨u, h1, h2⟩
    · rintro ⟨w, g1, g2⟩
      rw [trimmed_unique h1 g1, trimmed_unique h2 g2]

theorem leaf_spec (trimmed : Bool) {l m : Leaf} (hl : Comparable l) (hm : Comparable m) :
    ∃ r, l.areEqual trimmed m = some r ∧ (r = true ↔ SameLeaf (SameText trimmed) l m) := by
  have hno : ∀ {l m : Leaf}, l.areEqual trimmed m = some false → ¬ SameLeaf (SameText trimmed) l m →
      ∃ r, l.areEqual trimmed m = some r ∧ (r = true ↔ SameLeaf (SameText trimmed) l m) :=
    fun h1 h2 => ⟨false, h1, by simp [h2]⟩
  cases l with
  | content s =>
    cases m with
    | content t =>
      obtain ⟨r, e, h⟩ := text_spec trimmed hl hm
      exact ⟨r, e, h.trans ⟨.content, fun h => by cases h; assumption⟩⟩
    | _ => exact hno rfl (fun h => by cases h)
  | cdata s =>
    cases m with
    | cdata t =>
      obtain ⟨r, e, h⟩ := text_spec trimmed hl hm
      exact ⟨r, e, h.trans ⟨.cdata, fun h => by cases h; assumption⟩⟩
    | _ => exact hno rfl (fun h => by cases h)
  | comment s =>
    cases m with
    | comment t =>
      obtain ⟨r, e, h⟩ := text_spec trimmed hl hm
      exact ⟨r, e, h.trans ⟨.comment, fun h => by cases h; assumption⟩⟩
    | _ => exact hno rfl (fun h => by cases h)
  | ref s =>
    cases m with
    | ref t =>
      obtain ⟨r, e, h⟩ := text_spec trimmed hl hm
      exact ⟨r, e, h.trans ⟨.ref, fun h => by cases h; assumption⟩⟩
    | _ => exact hno rfl (fun h => by cases h)
  | pi p =>
    cases m with
    | pi q =>
      refine ⟨_, rfl, ?_⟩
      obtain ⟨pn, pc⟩ := p
      obtain ⟨qn, qc⟩ := q
      cases pc with
      | none => exact (hl rfl).elim
      | some pc =>
        cases qc with
        | none => exact (hm rfl).elim
        | some qc =>
          simp only [PI.areEqual, Attrs.cmp_beq]
          constructor
          · intro h
            by_cases h1 : pn = qn
            · subst h1
              simp only [beq_self_eq_true, if_true, beq_iff_eq] at h
              subst h
              exact .pi _
            · rw [if_neg (by simpa using h1)] at h
              simp at h
          · intro h; cases h; simp
    | _ => exact hno rfl (fun h => by cases h)

section
variable {R : List Char → List Char → Prop}

theorem same_isEmpty : ∀ {i j : Items}, SameItems R i j → i.isEmpty = j.isEmpty
  | _, _, .nil => rfl
  | _, _, .node _ h => by simpa [Items.isEmpty] using same_isEmpty h
  | _, _, .leaf hl h => by
    have := same_isEmpty h
    cases hl <;> simp [Items.isEmpty, this]

theorem same_haveChilds : ∀ {i j : Items}, SameItems R i j → i.haveChilds = j.haveChilds
  | _, _, .nil => rfl
  | _, _, .node _ _ => rfl
  | _, _, .leaf _ h => by simpa [Items.haveChilds] using same_haveChilds h

theorem same_childNum : ∀ {i j : Items}, SameItems R i j → i.childNum = j.childNum
  | _, _, .nil => rfl
  | _, _, .node _ h => by simpa [Items.childNum] using same_childNum h
  | _, _, .leaf _ h => by simpa [Items.childNum] using same_childNum h
end

theorem isEmpty_iff : ∀ i : Items, i.isEmpty = true ↔ ¬ Spec.Dump.hasTexts i
  | .nil => by simp [Items.isEmpty, Spec.Dump.hasTexts]
  | .node _ next => by simpa [Items.isEmpty, Spec.Dump.hasTexts] using isEmpty_iff next
  | .leaf l next => by
    have := isEmpty_iff next
    cases l <;> simp [Items.isEmpty, Spec.Dump.hasTexts, this]

theorem haveChilds_iff : ∀ i : Items, i.haveChilds = true ↔ 0 < i.childNum
  | .nil => by simp [Items.haveChilds, Items.childNum]
  | .node _ next => by simp [Items.haveChilds, Items.childNum]
  | .leaf _ next => by simpa [Items.haveChilds, Items.childNum] using haveChilds_iff next

theorem childNum_eq : ∀ i : Items, i.childNum = nodeCount i
  | .nil => rfl
  | .node _ next => by simp [Items.childNum, nodeCount, childNum_eq next]
  | .leaf _ next => by simp [Items.childNum, nodeCount, childNum_eq next]

/-- What the shallow comparison looks at. -/
def Shallow (n m : Node) : Prop :=
  n.name = m.name ∧ n.items.isEmpty = m.items.isEmpty ∧ n.items.haveChilds = m.items.haveChilds ∧
    n.items.childNum = m.items.childNum ∧ SameAttrs n.attrs m.attrs

theorem areEqual_spec {n m : Node} {ps qs} (hn : Attrs.Rep n.attrs ps) (hm : Attrs.Rep m.attrs qs) :
    ∃ r, n.areEqual m = some r ∧ (r = true ↔ Shallow n m) := by
  unfold Node.areEqual Shallow
  rw [Attrs.cmp_beq]
  by_cases h1 : n.name = m.name
  · by_cases h2 : n.items.isEmpty = m.items.isEmpty
    · by_cases h3 : n.items.haveChilds = m.items.haveChilds
      · by_cases h4 : n.items.childNum = m.items.childNum
        · simpa [h1, h2, h3, h4] using Attrs.areEqual_spec hn hm
        · simp [h1, h2, h3, h4]
      · simp [h1, h2, h3]
    · simp [h1, h2]
  · simp [h1]

theorem shallow_iff (n m : Node) : Shallow n m ↔ SameHead n m := by
  unfold Shallow
  constructor
  · rintro ⟨h1, h2, _, h4, h5⟩
    refine ⟨h1, h5, by rw [← childNum_eq, ← childNum_eq, h4], ?_⟩
    have a := isEmpty_iff n.items
    have b := isEmpty_iff m.items
    rw [h2] at a
    exact Decidable.not_iff_not.1 (a.symm.trans b)
  · rintro ⟨h1, h5, h4, h2⟩
    rw [← childNum_eq, ← childNum_eq] at h4
    refine ⟨h1, ?_, ?_, h4, h5⟩
    · rw [Bool.eq_iff_iff, isEmpty_iff, isEmpty_iff, h2]
    · rw [Bool.eq_iff_iff, haveChilds_iff, haveChilds_iff, h4]

mutual
/-- `Made`, with what is needed of the attributes. -/
def Good (P : Leaf → Prop) : Node → Prop
  | .mk _ a i => (∃ ps, Attrs.Rep a ps) ∧ GoodItems P i
def GoodItems (P : Leaf → Prop) : Items → Prop
  | .nil => True
  | .node n next => Good P n ∧ GoodItems P next
  | .leaf l next => P l ∧ GoodItems P next
end

mutual
theorem good_made {P Q : Leaf → Prop} (hpq : ∀ l, P l → Q l) : ∀ n, Made P n → Good Q n
  | .mk _ _ i, h => ⟨h.1.rep, good_madeItems hpq i h.2⟩
theorem good_madeItems {P Q : Leaf → Prop} (hpq : ∀ l, P l → Q l) : ∀ i, MadeItems P i → GoodItems Q i
  | .nil, _ => trivial
  | .node n next, h => ⟨good_made hpq n h.1, good_madeItems hpq next h.2⟩
  | .leaf l next, h => ⟨hpq l h.1, good_madeItems hpq next h.2⟩
end

theorem Good.rep {P : Leaf → Prop} : ∀ {n : Node}, Good P n → ∃ ps, Attrs.Rep n.attrs ps
  | .mk _ _ _, h => h.1

mutual
theorem deepEqual_spec (trimmed : Bool) : ∀ (n m : Node), Good Comparable n → Good Comparable m →
    ∃ r, n.deepEqual trimmed m = some r ∧ (r = true ↔ SameNode (SameText trimmed) n m)
  | .mk n a i, .mk n2 b j, hn, hm => by
    obtain ⟨⟨ps, ra⟩, hi⟩ := hn
    obtain ⟨⟨qs, rb⟩, hj⟩ := hm
    obtain ⟨r, e, hr⟩ := areEqual_spec (n := .mk n a i) (m := .mk n2 b j) ra rb
    obtain ⟨r2, e2, hr2⟩ := deepEqualItems_spec trimmed i j hi hj
    rw [Node.deepEqual, e]
    cases r with
    | false =>
      refine ⟨false, rfl, ?_⟩
      simp only [Bool.false_eq_true, false_iff] at hr ⊢
      rintro ⟨_, ha, h⟩
      exact hr ⟨rfl, same_isEmpty h, same_haveChilds h, same_childNum h, ha⟩
    | true =>
      obtain ⟨h1, h2, h3, h4, h5⟩ := hr.1 rfl
      simp only [Node.name, Node.items, Node.attrs] at h1 h2 h3 h4 h5
      subst h1
      refine ⟨r2, ?_, ?_⟩
      · simpa [h4] using e2
      · rw [hr2]
        exact ⟨fun h => .mk _ h5 h, fun h => by cases h; assumption⟩
theorem deepEqualItems_spec (trimmed : Bool) : ∀ (i j : Items), GoodItems Comparable i → GoodItems Comparable j →
    ∃ r, i.deepEqual trimmed j = some r ∧ (r = true ↔ SameItems (SameText trimmed) i j)
  | .nil, .nil, _, _ => ⟨true, by rw [Items.deepEqual], by simp [SameItems.nil]⟩
  | .nil, .node _ _, _, _ => ⟨false, by rw [Items.deepEqual] <;> simp, by simp only [Bool.false_eq_true, false_iff]; intro h; cases h⟩
  | .nil, .leaf _ _, _, _ => ⟨false, by rw [Items.deepEqual] <;> simp, by simp only [Bool.false_eq_true, false_iff]; intro h; cases h⟩
  | .node _ _, .nil, _, _ => ⟨false, by rw [Items.deepEqual] <;> simp, by simp only [Bool.false_eq_true, false_iff]; intro h; cases h⟩
  | .leaf _ _, .nil, _, _ => ⟨false, by rw [Items.deepEqual] <;> simp, by simp only [Bool.false_eq_true, false_iff]; intro h; cases h⟩
  | .node _ _, .leaf _ _, _, _ => ⟨false, by rw [Items.deepEqual] <;> simp, by simp only [Bool.false_eq_true, false_iff]; intro h; cases h⟩
  | .leaf _ _, .node _ _, _, _ => ⟨false, by rw [Items.deepEqual] <;> simp, by simp only [Bool.false_eq_true, false_iff]; intro h; cases h⟩
  | .node x s, .node y t, hi, hj => by
    obtain ⟨r0, e0, hr0⟩ := areEqual_spec hi.1.rep.choose_spec hj.1.rep.choose_spec
    obtain ⟨r1, e1, hr1⟩ := deepEqual_spec trimmed x y hi.1 hj.1
    obtain ⟨r2, e2, hr2⟩ := deepEqualItems_spec trimmed s t hi.2 hj.2
    rw [Items.deepEqual, e0, e1, e2]
    have h0 : SameNode (SameText trimmed) x y → r0 = true := by
      rintro ⟨_, ha, h⟩
      exact hr0.2 ⟨rfl, same_isEmpty h, same_haveChilds h, same_childNum h, ha⟩
    cases r1 with
    | false =>
      refine ⟨false, by cases r0 <;> rfl, ?_⟩
      simp only [Bool.false_eq_true, false_iff] at hr1 ⊢
      rintro ⟨⟩
      exact hr1 (by assumption)
    | true =>
      rw [h0 (hr1.1 rfl)]
      refine ⟨r2, rfl, hr2.trans ⟨fun h => .node (hr1.1 rfl) h, fun h => by cases h; assumption⟩⟩
  | .leaf l s, .leaf m t, hi, hj => by
    obtain ⟨r1, e1, hr1⟩ := leaf_spec trimmed hi.1 hj.1
    obtain ⟨r2, e2, hr2⟩ := deepEqualItems_spec trimmed s t hi.2 hj.2
    rw [Items.deepEqual, e1, e2]
    cases r1 with
    | false =>
      refine ⟨false, rfl, ?_⟩
      simp only [Bool.false_eq_true, false_iff] at hr1 ⊢
      rintro ⟨⟩
      exact hr1 (by assumption)
    | true =>
      refine ⟨r2, rfl, hr2.trans ⟨fun h => .leaf (hr1.1 rfl) h, fun h => by cases h; assumption⟩⟩
end

/-! ### The relation is an equivalence -/

theorem SameAttrs.refl (a : Attrs) : SameAttrs a a := ⟨rfl, fun _ => rfl⟩
theorem SameAttrs.symm {a b : Attrs} (h : SameAttrs a b) : SameAttrs b a := ⟨h.num.symm, fun n => (h.value n).symm⟩
theorem SameAttrs.trans {a b c : Attrs} (h : SameAttrs a b) (g : SameAttrs b c) : SameAttrs a c :=
  ⟨h.num.trans g.num, fun n => (h.value n).trans (g.value n)⟩

theorem sameText_refl (trimmed : Bool) (s : List Char) : SameText trimmed s s := by
  cases trimmed with
  | false => rfl
  | true =>
    obtain ⟨l, t, r, h1, h2, h3, h4, h5, _⟩ := exists_trimmed s
    exact ⟨t, ⟨l, r, h1, h2, h3, h4, h5⟩, ⟨l, r, h1, h2, h3, h4, h5⟩⟩
theorem sameText_symm {trimmed : Bool} {s t : List Char} (h : SameText trimmed s t) : SameText trimmed t s := by
  cases trimmed with
  | false => exact Eq.symm h
  | true => obtain ⟨u, h1, h2⟩ := h; exact ⟨u, h2, h1⟩
theorem sameText_trans {trimmed : Bool} {s t u : List Char} (h : SameText trimmed s t) (g : SameText trimmed t u) :
    SameText trimmed s u := by
  cases trimmed with
  | false => exact Eq.trans h g
  | true =>
    obtain ⟨v, h1, h2⟩ := h
    obtain ⟨w, g1, g2⟩ := g
    have := trimmed_unique h2 g1
    subst this
    exact ⟨v, h1, g2⟩

section
variable {R : List Char → List Char → Prop}

theorem sameLeaf_refl (hR : ∀ s, R s s) : ∀ l, SameLeaf R l l
  | .content s => .content (hR s)
  | .cdata s => .cdata (hR s)
  | .comment s => .comment (hR s)
  | .ref s => .ref (hR s)
  | .pi p => .pi p

theorem sameLeaf_symm (hR : ∀ {s t}, R s t → R t s) {l m : Leaf} (h : SameLeaf R l m) : SameLeaf R m l := by
  cases h with
  | content h => exact .content (hR h)
  | cdata h => exact .cdata (hR h)
  | comment h => exact .comment (hR h)
  | ref h => exact .ref (hR h)
  | pi => exact .pi _

theorem sameLeaf_trans (hR : ∀ {s t u}, R s t → R t u → R s u) {l m k : Leaf} (h : SameLeaf R l m) (g : SameLeaf R m k) :
    SameLeaf R l k := by
  cases h with
  | content h => cases g with | content g => exact .content (hR h g)
  | cdata h => cases g with | cdata g => exact .cdata (hR h g)
  | comment h => cases g with | comment g => exact .comment (hR h g)
  | ref h => cases g with | ref g => exact .ref (hR h g)
  | pi => exact g

mutual
theorem sameNode_refl (hR : ∀ s, R s s) : ∀ n, SameNode R n n
  | .mk n a i => .mk n (SameAttrs.refl a) (sameItems_refl hR i)
theorem sameItems_refl (hR : ∀ s, R s s) : ∀ i, SameItems R i i
  | .nil => .nil
  | .node n next => .node (sameNode_refl hR n) (sameItems_refl hR next)
  | .leaf l next => .leaf (sameLeaf_refl hR l) (sameItems_refl hR next)
end

mutual
theorem sameNode_symm (hR : ∀ {s t}, R s t → R t s) : ∀ {n m}, SameNode R n m → SameNode R m n
  | _, _, .mk n ha hi => .mk n (SameAttrs.symm ha) (sameItems_symm hR hi)
theorem sameItems_symm (hR : ∀ {s t}, R s t → R t s) : ∀ {i j}, SameItems R i j → SameItems R j i
  | _, _, .nil => .nil
  | _, _, .node h g => .node (sameNode_symm hR h) (sameItems_symm hR g)
  | _, _, .leaf h g => .leaf (sameLeaf_symm hR h) (sameItems_symm hR g)
end

mutual
theorem sameNode_trans (hR : ∀ {s t u}, R s t → R t u → R s u) : ∀ (n : Node) {m k}, SameNode R n m → SameNode R m k → SameNode R n k
  | .mk _ _ _, _, _, .mk n ha hi, .mk _ hb hj => .mk n (SameAttrs.trans ha hb) (sameItems_trans hR _ hi hj)
theorem sameItems_trans (hR : ∀ {s t u}, R s t → R t u → R s u) : ∀ (i : Items) {j k}, SameItems R i j → SameItems R j k → SameItems R i k
  | .nil, _, _, .nil, .nil => .nil
  | .node x _, _, _, .node h g, .node h' g' => .node (sameNode_trans hR x h h') (sameItems_trans hR _ g g')
  | .leaf _ _, _, _, .leaf h g, .leaf h' g' => .leaf (sameLeaf_trans (R := R) hR h h') (sameItems_trans hR _ g g')
end
end

/-! ### Copies -/

namespace Attrs

theorem sameAttrs_of_rep {a b : Attrs} {ps : Pairs} (ha : Rep a ps) (hb : Rep b ps) : SameAttrs a b :=
  (sameAttrs_iff ha hb).2 ⟨rfl, fun _ h => h⟩

end Attrs

theorem leaf_copy {l : Leaf} (h : Copiable l) : l.copy = some l := by
  cases l with
  | content s => simp [Leaf.copy, textCopy, show NUL ∉ s from h]
  | cdata s => simp [Leaf.copy, textCopy, show NUL ∉ s from h]
  | comment s => simp [Leaf.copy, textCopy, show NUL ∉ s from h]
  | pi p => rfl
  | ref s => exact h.elim

mutual
theorem copy_node : ∀ n : Node, Good Copiable n →
    ∃ m, n.copy true true = some m ∧ SameNode Eq n m ∧ Good Copiable m
  | .mk n a i, h => by
    obtain ⟨⟨ps, ra⟩, hi⟩ := h
    obtain ⟨b, e1, rb⟩ := Attrs.copy_spec ra
    obtain ⟨j, e2, hs, hg⟩ := copy_items i hi
    exact ⟨.mk n b j, by simp [Node.copy, e1, e2], .mk n (Attrs.sameAttrs_of_rep ra rb) hs, ⟨ps, rb⟩, hg⟩
theorem copy_items : ∀ i : Items, GoodItems Copiable i →
    ∃ j, i.copy = some j ∧ SameItems Eq i j ∧ GoodItems Copiable j
  | .nil, _ => ⟨.nil, by rw [Items.copy], .nil, trivial⟩
  | .node x s, h => by
    obtain ⟨y, e1, h1, g1⟩ := copy_node x h.1
    obtain ⟨t, e2, h2, g2⟩ := copy_items s h.2
    exact ⟨.node y t, by simp [Items.copy, e1, e2], .node h1 h2, g1, g2⟩
  | .leaf l s, h => by
    obtain ⟨t, e2, h2, g2⟩ := copy_items s h.2
    exact ⟨.leaf l t, by simp [Items.copy, leaf_copy h.1, e2], .leaf (sameLeaf_refl (fun _ => rfl) l) h2, h.1, g2⟩
end

theorem copy_flags (x y : Bool) (n : Node) (h : Good Copiable n) :
    ∃ m, n.copy x y = some m ∧ m.name = n.name ∧
      (if x then SameAttrs n.attrs m.attrs else m.attrs = Attrs.empty) ∧
      (if y then SameItems Eq n.items m.items else m.items = .nil) := by
  obtain ⟨n, a, i⟩ := n
  obtain ⟨⟨ps, ra⟩, hi⟩ := h
  obtain ⟨b, e1, rb⟩ := Attrs.copy_spec ra
  obtain ⟨j, e2, hs, hg⟩ := copy_items i hi
  have hab := Attrs.sameAttrs_of_rep ra rb
  cases x <;> cases y
  · exact ⟨.mk n .empty .nil, by simp [Node.copy, Attrs.copy_off], rfl, rfl, rfl⟩
  · exact ⟨.mk n .empty j, by simp [Node.copy, Attrs.copy_off, e2], rfl, rfl, hs⟩
  · exact ⟨.mk n b .nil, by simp [Node.copy, e1], rfl, hab, rfl⟩
  · exact ⟨.mk n b j, by simp [Node.copy, e1, e2], rfl, hab, hs⟩

/-- What is the same in the strict sense is the same. -/
theorem sameLeaf_mono {R S : List Char → List Char → Prop} (hRS : ∀ {s t}, R s t → S s t) {l m : Leaf}
    (h : SameLeaf R l m) : SameLeaf S l m := by
  cases h with
  | content h => exact .content (hRS h)
  | cdata h => exact .cdata (hRS h)
  | comment h => exact .comment (hRS h)
  | ref h => exact .ref (hRS h)
  | pi => exact .pi _

mutual
theorem sameNode_mono {R S : List Char → List Char → Prop} (hRS : ∀ {s t}, R s t → S s t) : ∀ {n m}, SameNode R n m → SameNode S n m
  | _, _, .mk n ha hi => .mk n ha (sameItems_mono hRS hi)
theorem sameItems_mono {R S : List Char → List Char → Prop} (hRS : ∀ {s t}, R s t → S s t) : ∀ {i j}, SameItems R i j → SameItems S i j
  | _, _, .nil => .nil
  | _, _, .node h g => .node (sameNode_mono hRS h) (sameItems_mono hRS g)
  | _, _, .leaf h g => .leaf (sameLeaf_mono hRS h) (sameItems_mono hRS g)
end

/-- Leaves that are the same are comparable together. -/
theorem comparable_same {l m : Leaf} (h : SameLeaf Eq l m) (hl : Comparable l) : Comparable m := by
  cases h with
  | content h => subst h; exact hl
  | cdata h => subst h; exact hl
  | comment h => subst h; exact hl
  | ref h => subst h; exact hl
  | pi => exact hl

mutual
theorem good_same : ∀ {n m}, SameNode Eq n m → Good Comparable n → Good Copiable m → Good Comparable m
  | _, _, .mk _ _ hi, hn, hm => ⟨hm.1, goodItems_same hi hn.2 hm.2⟩
theorem goodItems_same : ∀ {i j}, SameItems Eq i j → GoodItems Comparable i → GoodItems Copiable j → GoodItems Comparable j
  | _, _, .nil, _, _ => trivial
  | _, _, .node h g, hn, hm => ⟨good_same h hn.1 hm.1, goodItems_same g hn.2 hm.2⟩
  | _, _, .leaf h g, hn, hm => ⟨comparable_same h hn.1, goodItems_same g hn.2 hm.2⟩
end

end Axl
