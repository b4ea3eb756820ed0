/-
Proofs for C73: trees that say the same are valid for the same DTDs.
-/
import Verif.Proofs.Compare
import Verif.Proofs.Dtd
import Verif.Proofs.Stable

namespace Axl.Validates
open Spec.Compare
open Dtd hiding Good collectRefs_eq

variable {R : List Char → List Char → Prop} {P : Leaf → Prop}

theorem find_of_mem {ps : List (List Char × List Char)} (hd : (ps.map Prod.fst).Nodup) {p : List Char × List Char} (hp : p ∈ ps) :
    ps.find? (fun q => q.1 == p.1) = some p := by
  induction ps with
  | nil => cases hp
  | cons q ps ih =>
    rw [List.map_cons, List.nodup_cons] at hd
    rw [List.find?_cons]
    rcases List.mem_cons.1 hp with rfl | hp
    · simp
    · have : (q.1 == p.1) = false := by
        rw [beq_eq_false_iff_ne]
        intro h
        exact hd.1 (h ▸ List.mem_map_of_mem hp)
      rw [this]
      exact ih hd.2 hp

/-- The walk over the attributes finds one that is wrong exactly when there is one. -/
theorem wrong_iff {a : Attrs} {ps : List (List Char × List Char)} (hr : Attrs.Rep a ps) (al : AttList) :
    ∃ seen, a.foreach (attrWrong al) = some seen ∧
      ((seen.any fun p => attrWrong al p.1 (p.2.getD [])) = true ↔ ∃ k v, a.getValue k = some (some v) ∧ attrWrong al k v = true) := by
  obtain ⟨qs, hp, hf⟩ := Attrs.rep_foreach hr
  refine ⟨_, hf _, ?_⟩
  have hmem : (∃ k v, a.getValue k = some (some v) ∧ attrWrong al k v = true) ↔ ∃ p ∈ qs, attrWrong al p.1 p.2 = true := by
    constructor
    · rintro ⟨k, v, h1, h2⟩
      rw [(Attrs.rep_find hr k).2, Option.some.injEq, Option.map_eq_some_iff] at h1
      obtain ⟨p, h3, rfl⟩ := h1
      have h4 := List.find?_some h3
      rw [beq_iff_eq] at h4
      exact ⟨p, hp.symm.subset (List.mem_of_find?_eq_some h3), h4 ▸ h2⟩
    · rintro ⟨p, h1, h2⟩
      refine ⟨p.1, p.2, ?_, h2⟩
      rw [(Attrs.rep_find hr p.1).2, find_of_mem hr.1 (hp.subset h1)]
      rfl
  rw [hmem, List.any_map, List.any_append, Bool.or_eq_true]
  constructor
  · rintro (h | h)
    · obtain ⟨p, h1, h2⟩ := List.any_eq_true.1 h
      exact ⟨p, List.takeWhile_subset _ h1, h2⟩
    · obtain ⟨p, h1, h2⟩ := List.any_eq_true.1 h
      exact ⟨p, List.mem_of_find?_eq_some (Option.mem_toList.1 h1), h2⟩
  · rintro ⟨p, h1, h2⟩
    right
    cases hq : qs.find? (fun p => attrWrong al p.1 p.2) with
    | none =>
      rw [List.find?_eq_none] at hq
      exact absurd h2 (hq p h1)
    | some q => simpa using List.find?_some hq

theorem hasAttribute_eq {a b : Attrs} {ps qs : List (List Char × List Char)} (ha : Attrs.Rep a ps) (hb : Attrs.Rep b qs)
    (h : ∀ k, a.getValue k = b.getValue k) (k : List Char) : a.hasAttribute k = b.hasAttribute k := by
  have e := h k
  rw [(Attrs.rep_find ha k).2, (Attrs.rep_find hb k).2, Option.some.injEq] at e
  have f := congrArg Option.isSome e
  rw [Option.isSome_map, Option.isSome_map, Bool.eq_iff_iff, List.find?_isSome, List.find?_isSome] at f
  rw [(Attrs.rep_find ha k).1, (Attrs.rep_find hb k).1]
  congr 1
  rw [Bool.eq_iff_iff, List.any_eq_true, List.any_eq_true]
  simpa using f

theorem anyMissing_eq {a b : Attrs} (h1 : ∀ k, a.hasAttribute k = b.hasAttribute k) (h2 : ∀ k, a.getValue k = b.getValue k) :
    ∀ xs, anyMissing a xs = anyMissing b xs
  | [] => rfl
  | x :: xs => by
    have : declMissing a x = declMissing b x := by
      unfold declMissing Attrs.hasAttributeValue
      simp only [h1, h2]
    rw [anyMissing, anyMissing, this, anyMissing_eq h1 h2 xs]

theorem collectRefs_eq {a b : Attrs} (h : ∀ k, a.getValue k = b.getValue k) :
    ∀ xs refs, collectRefs a xs refs = collectRefs b xs refs
  | [], _ => rfl
  | x :: xs, refs => by
    unfold collectRefs
    rw [h x.name]
    simp only [collectRefs_eq h xs]

theorem checkId_eq (d : Dtd) (al : AttList) {a b : Attrs} (h : ∀ k, a.getValue k = b.getValue k) (st : IdState) :
    checkId d al a st = checkId d al b st := by
  unfold checkId
  simp only [h]

theorem attrValidate_same (d : Dtd) {n m : Node} (h : SameNode R n m) (hn : Good P n) (hm : Good P m) (st : IdState) :
    attrValidate d n st = attrValidate d m st := by
  cases h with
  | @mk name a b i j ha hi =>
    obtain ⟨⟨ps, ra⟩, -⟩ := hn
    obtain ⟨⟨qs, rb⟩, -⟩ := hm
    unfold attrValidate
    simp only [Node.name, Node.attrs]
    cases d.attr name with
    | none => rfl
    | some al =>
      obtain ⟨s1, e1, h1⟩ := wrong_iff ra al
      obtain ⟨s2, e2, h2⟩ := wrong_iff rb al
      have hw : (s1.any fun p => attrWrong al p.1 (p.2.getD [])) = (s2.any fun p => attrWrong al p.1 (p.2.getD [])) := by
        rw [Bool.eq_iff_iff, h1, h2]
        simp only [ha.value]
      simp only [e1, e2, hw, anyMissing_eq (hasAttribute_eq ra rb ha.value) ha.value, checkId_eq d al ha.value, collectRefs_eq ha.value]

/-- Trees one to one. -/
inductive Rows (R : List Char → List Char → Prop) (P : Leaf → Prop) : List Node → List Node → Prop
  | nil : Rows R P [] []
  | cons {n m ns ms} : SameNode R n m → Good P n → Good P m → Rows R P ns ms → Rows R P (n :: ns) (m :: ms)

theorem Rows.append {as bs cs ds : List Node} (h : Rows R P as bs) (g : Rows R P cs ds) : Rows R P (as ++ cs) (bs ++ ds) := by
  induction h with
  | nil => exact g
  | cons a b c _ ih => exact .cons a b c ih

theorem Rows.reverse {as bs : List Node} (h : Rows R P as bs) : Rows R P as.reverse bs.reverse := by
  induction h with
  | nil => exact .nil
  | cons a b c _ ih =>
    rw [List.reverse_cons, List.reverse_cons]
    exact ih.append (.cons a b c .nil)

theorem SameNode.name_eq {n m : Node} (h : SameNode R n m) : n.name = m.name := by cases h; rfl

theorem Rows.names {as bs : List Node} (h : Rows R P as bs) : as.map Node.name = bs.map Node.name := by
  induction h with
  | nil => rfl
  | cons a _ _ _ ih => simp [SameNode.name_eq a, ih]

theorem rows_kids : ∀ {i j : Items}, SameItems R i j → GoodItems P i → GoodItems P j → Rows R P (Items.kids i) (Items.kids j)
  | _, _, .nil, _, _ => .nil
  | _, _, .node h hs, hi, hj => .cons h hi.1 hj.1 (rows_kids hs hi.2 hj.2)
  | _, _, .leaf _ hs, hi, hj => by simpa only [Items.kids] using rows_kids hs hi.2 hj.2

theorem contentValidate_same (fuel : Nat) (e : Element) {n m : Node} (h : SameNode R n m) (hn : Good P n) (hm : Good P m) (top : Bool) :
    contentValidate fuel e n top = contentValidate fuel e m top := by
  cases h with
  | mk name ha hi =>
    unfold contentValidate
    simp only [Node.items, same_isEmpty hi, same_haveChilds hi, (rows_kids hi hn.2 hm.2).names]

theorem validateLoop_same (d : Dtd) (fuel : Nat) : ∀ (k : Nat) {n m : Node} (e : Element) (top : Bool) {ns ms : List Node} (st : IdState),
    SameNode R n m → Good P n → Good P m → Rows R P ns ms →
    validateLoop d fuel k n e top ns st = validateLoop d fuel k m e top ms st
  | 0, _, _, _, _, _, _, _, _, _, _, _ => rfl
  | k + 1, n, m, e, top, ns, ms, st, h, hn, hm, hs => by
    unfold validateLoop
    rw [attrValidate_same d h hn hm st]
    cases attrValidate d m st with
    | none => rfl
    | some t =>
      obtain ⟨b, st'⟩ := t
      cases b with
      | false => rfl
      | true =>
        simp only [contentValidate_same fuel e h hn hm top]
        cases contentValidate fuel e m top with
        | none => rfl
        | some b =>
          cases b with
          | false => rfl
          | true =>
            have hr : Rows R P (if e.type.isAny then ns else (Items.kids n.items).reverse ++ ns)
                (if e.type.isAny then ms else (Items.kids m.items).reverse ++ ms) := by
              split
              · exact hs
              · cases h with
                | mk name ha hi => exact (rows_kids hi hn.2 hm.2).reverse.append hs
            simp only
            generalize (if e.type.isAny then ns else (Items.kids n.items).reverse ++ ns) = xs at hr
            generalize (if e.type.isAny then ms else (Items.kids m.items).reverse ++ ms) = ys at hr
            cases hr with
            | nil =>
              simp only
              rw [validateLoop_same d fuel k e false st' h hn hm .nil]
            | cons a b c hr =>
              simp only [SameNode.name_eq a]
              split
              · rfl
              · rename_i e' _
                exact validateLoop_same d fuel k e' false st' a b c hr

/-- Trees that say the same get the same answer. -/
theorem validate_same (fuel : Nat) (d : Dtd) {n m : Node} (h : SameNode R n m) (hn : Good P n) (hm : Good P m) :
    validate fuel d n = validate fuel d m := by
  unfold validate
  have hroot : d.rootElement n = d.rootElement m := by
    unfold Dtd.rootElement
    rw [SameNode.name_eq h]
  rw [hroot]
  cases d.rootElement m with
  | none => rfl
  | some e =>
    simp only
    split
    · have hi : n.items.isEmpty = m.items.isEmpty ∧ n.items.haveChilds = m.items.haveChilds := by
        cases h with
        | mk name ha hi => exact ⟨same_isEmpty hi, same_haveChilds hi⟩
      rw [hi.1, hi.2, attrValidate_same d h hn hm]
    · exact validateLoop_same d fuel fuel e true _ h hn hm .nil

/-! ### Written and read -/

mutual
theorem alike_node : ∀ {n m : Node}, Spec.RoundTrip.Same n m → SameNode (fun _ _ => True) n m
  | .mk _ a i, .mk _ b j, ⟨rfl, ha, hi⟩ => .mk _ ⟨ha.2.1.symm, fun k => (ha.1 k).symm⟩ (alike_items hi)
theorem alike_items : ∀ {i j : Items}, Spec.RoundTrip.SameItems i j → SameItems (fun _ _ => True) i j
  | .nil, .nil, _ => .nil
  | .node _ _, .node _ _, h => .node (alike_node h.1) (alike_items h.2)
  | .leaf l i, .leaf l' j, h => by
    have : SameLeaf (fun _ _ => True) l l' := by
      have hl := h.1
      cases l <;> (simp only [Spec.RoundTrip.SameLeaf] at hl; subst hl)
      · exact .content trivial
      · exact .cdata trivial
      · exact .comment trivial
      · exact .pi _
      · exact .ref trivial
    exact .leaf this (alike_items h.2)
  | .nil, .node _ _, h => h.elim
  | .nil, .leaf _ _, h => h.elim
  | .node _ _, .nil, h => h.elim
  | .node _ _, .leaf _ _, h => h.elim
  | .leaf _ _, .nil, h => h.elim
  | .leaf _ _, .node _ _, h => h.elim
end

mutual
theorem good_fine (y : Spec.Dump.Layout) : ∀ {n : Node}, Spec.RoundTrip.Fine y n → Good (fun _ => True) n
  | .mk _ _ i, h => ⟨h.2.1.rep, good_fineItems y h.2.2.2.2.2⟩
theorem good_fineItems (y : Spec.Dump.Layout) : ∀ {b : Spec.RoundTrip.Before} {i : Items}, Spec.RoundTrip.FineItems y b i →
    GoodItems (fun _ => True) i
  | _, .nil, _ => trivial
  | _, .node _ _, h => ⟨good_fine y h.1, good_fineItems y h.2⟩
  | _, .leaf _ _, h => ⟨trivial, good_fineItems y h.2.2⟩
end

mutual
theorem good_allMade : ∀ {n : Node}, Parse.AllMade n → Good (fun _ => True) n
  | .mk _ _ i, h => ⟨h.1.rep, good_allMadeItems h.2⟩
theorem good_allMadeItems : ∀ {i : Items}, Parse.AllMadeItems i → GoodItems (fun _ => True) i
  | .nil, _ => trivial
  | .node _ _, h => ⟨good_allMade h.1, good_allMadeItems h.2⟩
  | .leaf _ _, h => ⟨trivial, good_allMadeItems h⟩
end

mutual
theorem good_weaken : ∀ {n : Node}, Good P n → Good (fun _ => True) n
  | .mk _ _ i, h => ⟨h.1, good_weakenItems h.2⟩
theorem good_weakenItems : ∀ {i : Items}, GoodItems P i → GoodItems (fun _ => True) i
  | .nil, _ => trivial
  | .node _ _, h => ⟨good_weaken h.1, good_weakenItems h.2⟩
  | .leaf _ _, h => ⟨trivial, good_weakenItems h.2⟩
end

end Axl.Validates
