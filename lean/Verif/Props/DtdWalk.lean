/-
C49: a program that reads a content model through the API sees the one that was declared.
-/
import Verif.Spec.DtdWalk
import Verif.Props.DtdQuery

namespace Axl.Dtd
open Str Source

theorem mapM_range {α : Type} : ∀ (l : List α) (g : Nat → Option α), (∀ i (h : i < l.length), g i = some l[i]) →
    (List.range l.length).mapM g = some l
  | [], _, _ => rfl
  | x :: l, g, h => by
    have h1 := mapM_range l (fun i => g (i + 1)) (fun i hi => h (i + 1) (by simpa using hi))
    have h0 : g 0 = some x := h 0 (by simp)
    simp only [List.length_cons, List.range_succ_eq_map, List.mapM_cons, h0, List.mapM_map]
    have e : (g ∘ Nat.succ) = fun i => g (i + 1) := rfl
    simp [Function.comp_def, h1]

theorem groupNode_of (g : Group) (i : Nat) (h : i < g.items.length) : groupNode (some g) i = some g.items[i] := by
  simp [groupNode, groupCount, h]

theorem kindNamed_type (g : Group) : kindNamed (groupType (some g)) = some g.kind := by
  obtain ⟨k, t, i⟩ := g
  cases k <;> rfl

theorem readItems_of {fuel : Nat} (g : Group) (h : ∀ p ∈ g.items, readItem fuel (some p) = some p) :
    (List.range (groupCount (some g)).toNat).mapM (fun (i : Nat) => readItem fuel (groupNode (some g) i)) = some g.items := by
  have : (groupCount (some g)).toNat = g.items.length := by simp [groupCount]
  rw [this]
  exact mapM_range _ _ fun i hi => by rw [groupNode_of g i hi]; exact h _ (List.getElem_mem _)

mutual
theorem readItem_of : (p : Part) → ∃ N, ∀ fuel, N ≤ fuel → readItem fuel (some p) = some p
  | .node t n => ⟨1, fun fuel h => by
      obtain ⟨f, rfl⟩ : ∃ f, fuel = f + 1 := ⟨fuel - 1, by omega⟩
      simp [readItem, itemType, itemRepeat, itemValue]⟩
  | .list k t items => by
    obtain ⟨N, hN⟩ := readAll_of items
    refine ⟨N + 1, fun fuel h => ?_⟩
    obtain ⟨f, rfl⟩ : ∃ f, fuel = f + 1 := ⟨fuel - 1, by omega⟩
    have h1 := readItems_of (fuel := f) ⟨k, some t, items⟩ (hN f (by omega))
    have h2 := kindNamed_type ⟨k, some t, items⟩
    simp only [readItem, itemType, itemGroup, h1, h2]
    simp [groupRepeat]
theorem readAll_of : (ps : List Part) → ∃ N, ∀ fuel, N ≤ fuel → ∀ p ∈ ps, readItem fuel (some p) = some p
  | [] => ⟨0, by simp⟩
  | p :: ps => by
    obtain ⟨N, hN⟩ := readItem_of p
    obtain ⟨M, hM⟩ := readAll_of ps
    refine ⟨N + M, fun fuel h q hq => ?_⟩
    rcases List.mem_cons.1 hq with rfl | hq
    · exact hN fuel (by omega)
    · exact hM fuel (by omega) q hq
end

/-- **C49, content models.**  A program that reads an element through the functions of the API sees its name, its sort of
content and, whatever the depth, its whole content model, unless the last parenthesis was missing. -/
theorem C49_walk (e : Element) : elementName (some e) = some e.name ∧ typeNumber (some e) = sortNumber e.type ∧
    ((∀ l, e.type ≠ .unclosed l) → ∃ N, ∀ fuel, N ≤ fuel → readElement fuel (some e) = some e.list) := by
  refine ⟨rfl, ?_, fun hu => ?_⟩
  · simp only [typeNumber]
    cases e.type <;> rfl
  · cases hl : e.list with
    | none => exact ⟨0, fun _ _ => by simp [readElement, itemListOf, hl]⟩
    | some l =>
      obtain ⟨N, hN⟩ := readAll_of l.items
      refine ⟨N, fun fuel h => ?_⟩
      have ht : e.type.times = some l.times := by
        obtain ⟨n, t⟩ := e
        cases t <;> simp [Element.list] at hl hu <;> subst hl <;> rfl
      have h1 := readItems_of (fuel := fuel) ⟨l.kind, some l.times, l.items⟩ (hN fuel h)
      have h2 := kindNamed_type ⟨l.kind, some l.times, l.items⟩
      simp only [readElement, itemListOf, hl, Option.map_some, ht, h1, h2]
      simp [groupRepeat]

theorem stored_closed (m : Model) (l : Content) : m.stored ≠ .unclosed l := by
  cases m <;> simp [Model.stored]

/-- **C49, content models.**  What is found with `axl_dtd_get_element` in a DTD that was parsed, and read through the API, is
what was written for that element. -/
theorem C49_walk_text (x : Subset) (h : x.Valid) (hac : Acyclic x.elements) (e : Element) (he : e ∈ x.elements) :
    ∃ N, ∀ fuel, N ≤ fuel → ∃ d, parse fuel x.chars = .ok d ∧ elementName (d.element e.name) = some e.name ∧
      typeNumber (d.element e.name) = sortNumber e.type ∧ readElement fuel (d.element e.name) = some e.list := by
  have hu : ∀ l, e.type ≠ .unclosed l := by
    obtain ⟨p, -, hp⟩ := List.mem_filterMap.1 he
    split at hp
    · cases hp; exact stored_closed _
    · cases hp
  obtain ⟨N, hN⟩ := parse_of h hac
  obtain ⟨M, hM⟩ := (C49_walk e).2.2 hu
  refine ⟨N + M, fun fuel hf => ?_⟩
  obtain ⟨d, h1, h2⟩ := hN fuel (by omega)
  have h3 : d.element e.name = some e := (C49_element x.chars fuel d h1 e.name e).2 ⟨by rw [h2.elements]; exact he, rfl⟩
  refine ⟨d, h1, ?_⟩
  rw [h3]
  exact ⟨(C49_walk e).1, (C49_walk e).2.1, hM fuel (by omega)⟩

/-- **C49, content models.**  A position gives an item exactly from 0 to before the count; an item is a name or a list, a name
has no list, the value of a list is a fixed text and the repetition of an item that is a list is that of the list; and NULL is answered with a value that no element, list or item has. -/
theorem C49_walk_limits :
    (∀ (g : Group) (i : Int), (groupNode (some g) i).isSome ↔ 0 ≤ i ∧ i < groupCount (some g)) ∧
    (∀ p : Part, (itemType (some p) = 3 ↔ ∃ t n, p = .node t n) ∧ (itemType (some p) = 2 ↔ ∃ k t items, p = .list k t items) ∧
      (itemType (some p) = 2 ↔ (itemGroup (some p)).isSome) ∧
      (itemType (some p) = 2 → itemValue (some p) = some c!"requested-value-on-a-list" ∧
        itemRepeat (some p) = groupRepeat (itemGroup (some p)))) ∧
    (∀ e, typeNumber (some e) ≠ typeNumber none) ∧ (∀ g, groupCount (some g) ≠ groupCount none) ∧
    (∀ g, groupType (some g) ≠ groupType none) ∧ (∀ p, itemType (some p) ≠ itemType none) ∧
    groupNode none = (fun _ => none) ∧ itemValue none = none ∧ itemGroup none = none ∧ itemRepeat none = none := by
  refine ⟨fun g i => ?_, fun p => ?_, fun e => ?_, fun g => ?_, fun g => ?_, fun p => ?_, ?_, rfl, rfl, rfl⟩
  · by_cases h1 : 0 ≤ i
    · by_cases h2 : i < g.items.length
      · have : i.toNat < g.items.length := by omega
        simp [groupNode, groupCount, this, h1, h2]
      · simp [groupNode, groupCount, h1, h2]
    · simp [groupNode, h1]
  · cases p <;> simp [itemType, itemGroup, itemValue, itemRepeat, groupRepeat]
  · simp only [typeNumber]
    cases e.type <;> simp [ElementType.tag]
  · simp only [groupCount]; omega
  · simp only [groupType]
    cases g.kind <;> simp
  · cases p <;> simp [itemType]
  · funext i; rfl

/-- A content model whose last parenthesis is missing is accepted, and its repetition is unknown. -/
theorem C49_walk_unclosed (n : List Char) (l : Content) : groupRepeat (itemListOf (some ⟨n, .unclosed l⟩)) = none ∧
    groupCount (itemListOf (some ⟨n, .unclosed l⟩)) = l.items.length := ⟨rfl, rfl⟩

example : readElement 5 (some ⟨c!"book", .children bookModel⟩) = some (some bookModel) := by rfl

example : ∀ l, (⟨c!"book", .children bookModel⟩ : Element).type ≠ .unclosed l := by intro l h; cases h

example : sample46.Valid ∧ Acyclic sample46.elements ∧ ∃ e ∈ sample46.elements, e.list.isSome :=
  ⟨sample46_valid, sample46_acyclic, by decide +kernel⟩

end Axl.Dtd
