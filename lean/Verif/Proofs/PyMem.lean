/-
Facts about the memory of `Verif.Model.Py`: looking nodes up in all the forests, and which nodes are
there after a change.
-/
import Verif.Proofs.PyForest

namespace Axl.Py
open Forest

/-- The nodes of some forests. -/
def allIds (l : List Forest) : List Nat := l.flatMap Forest.ids

theorem mem_allIds {l : List Forest} {n : Nat} : n ∈ allIds l ↔ ∃ f ∈ l, n ∈ f.ids := by
  simp [allIds]

theorem nodup_cons_ids {f : Forest} {l : List Forest} (h : (allIds (f :: l)).Nodup) :
    f.ids.Nodup ∧ (allIds l).Nodup ∧ ∀ i ∈ f.ids, i ∉ allIds l := by
  simp only [allIds, List.flatMap_cons, List.nodup_append] at h
  exact ⟨h.1, h.2.1, fun i hi hj => h.2.2 i hi i hj rfl⟩

theorem map_addKid_perm {p : Nat} {t : Forest} {l : List Forest} (h : (allIds l).Nodup) (hp : p ∈ allIds l) :
    (allIds (l.map fun f => f.addKid p t)).Perm (allIds l ++ t.ids) := by
  induction l with
  | nil => simp [allIds] at hp
  | cons f l ih =>
    obtain ⟨hf, hl, hd⟩ := nodup_cons_ids h
    simp only [List.map_cons, allIds, List.flatMap_cons]
    by_cases hpf : p ∈ f.ids
    · have e : l.map (fun f => f.addKid p t) = l :=
        (List.map_congr_left fun g hg => addKid_of_not_mem fun hq => hd p hpf (mem_allIds.2 ⟨g, hg, hq⟩)).trans (List.map_id' l)
      rw [e]
      refine (List.Perm.append_right _ (addKid_perm hf hpf)).trans ?_
      rw [List.append_assoc, List.append_assoc]
      exact List.Perm.append_left _ List.perm_append_comm
    · rw [addKid_of_not_mem hpf, List.append_assoc]
      refine List.Perm.append_left _ (ih hl ?_)
      simpa [allIds, hpf] using hp

theorem map_addAfter_perm {p : Nat} {t : Forest} {l : List Forest} (h : (allIds l).Nodup) (hp : p ∈ allIds l) :
    (allIds (l.map fun f => f.addAfter p t)).Perm (allIds l ++ t.ids) := by
  induction l with
  | nil => simp [allIds] at hp
  | cons f l ih =>
    obtain ⟨hf, hl, hd⟩ := nodup_cons_ids h
    simp only [List.map_cons, allIds, List.flatMap_cons]
    by_cases hpf : p ∈ f.ids
    · have e : l.map (fun f => f.addAfter p t) = l :=
        (List.map_congr_left fun g hg => addAfter_of_not_mem fun hq => hd p hpf (mem_allIds.2 ⟨g, hg, hq⟩)).trans (List.map_id' l)
      rw [e]
      refine (List.Perm.append_right _ (addAfter_perm hf hpf)).trans ?_
      rw [List.append_assoc, List.append_assoc]
      exact List.Perm.append_left _ List.perm_append_comm
    · rw [addAfter_of_not_mem hpf, List.append_assoc]
      refine List.Perm.append_left _ (ih hl ?_)
      simpa [allIds, hpf] using hp

theorem findSome_sub {n : Nat} {l : List Forest} (h : n ∈ allIds l) : ∃ t, l.findSome? (Forest.sub n) = some t := by
  induction l with
  | nil => simp [allIds] at h
  | cons f l ih =>
    by_cases hf : n ∈ f.ids
    · have := sub_isSome n f
      obtain ⟨t, ht⟩ := Option.isSome_iff_exists.1 (this.trans (by simpa using hf))
      exact ⟨t, by simp [ht]⟩
    · have hl : n ∈ allIds l := by simpa [allIds, hf] using h
      obtain ⟨t, ht⟩ := ih hl
      exact ⟨t, by simp [sub_of_not_mem hf, ht]⟩

theorem map_without_perm {n : Nat} {l : List Forest} {t : Forest} (h : (allIds l).Nodup)
    (ht : l.findSome? (Forest.sub n) = some t) :
    (allIds l).Perm (t.ids ++ allIds (l.map (Forest.without n))) := by
  induction l with
  | nil => simp at ht
  | cons f l ih =>
    obtain ⟨hf, hl, hd⟩ := nodup_cons_ids h
    simp only [List.map_cons, allIds, List.flatMap_cons]
    by_cases hpf : n ∈ f.ids
    · have e : l.map (Forest.without n) = l :=
        (List.map_congr_left fun g hg => without_of_not_mem fun hq => hd n hpf (mem_allIds.2 ⟨g, hg, hq⟩)).trans (List.map_id' l)
      have := sub_isSome n f
      obtain ⟨t', ht'⟩ := Option.isSome_iff_exists.1 (this.trans (by simpa using hpf))
      simp only [List.findSome?_cons, ht', Option.some.injEq] at ht
      subst ht
      rw [e, ← List.append_assoc]
      exact List.Perm.append_right _ (sub_perm hf ht')
    · rw [without_of_not_mem hpf]
      simp only [List.findSome?_cons, sub_of_not_mem hpf] at ht
      have := ih hl ht
      refine (List.Perm.append_left _ this).trans ?_
      rw [← List.append_assoc, ← List.append_assoc]
      exact List.Perm.append_right _ List.perm_append_comm

/-- Looking a node up finds something exactly if the node is there. -/
theorem findSome_isSome {α : Type} {g : Forest → Option α} {n : Nat} (hg : ∀ f, (g f).isSome = decide (n ∈ f.ids))
    (l : List Forest) : (l.findSome? g).isSome = decide (n ∈ allIds l) := by
  induction l with
  | nil => simp [allIds]
  | cons f l ih =>
    have := hg f
    by_cases hf : n ∈ f.ids
    · obtain ⟨t, ht⟩ := Option.isSome_iff_exists.1 (this.trans (by simpa using hf))
      simp [ht, allIds, hf]
    · have h0 : g f = none := by simpa [hf] using this
      rw [List.findSome?_cons, h0]
      simp only
      rw [ih]
      simp [allIds, hf]

theorem findSome_mem {α : Type} {g : Forest → Option α} {l : List Forest} {a : α} (h : l.findSome? g = some a) :
    ∃ f ∈ l, g f = some a := List.exists_of_findSome?_eq_some h

namespace Mem

theorem ids_eq (m : Mem) : m.ids = allIds m.forests := rfl

theorem look_isSome {α : Type} {g : Forest → Option α} {n : Nat} (hg : ∀ f, (g f).isSome = decide (n ∈ f.ids))
    (m : Mem) : (m.look g).isSome = decide (n ∈ m.ids) := findSome_isSome hg m.forests

theorem look_some {α : Type} {g : Forest → Option α} {n : Nat} (hg : ∀ f, (g f).isSome = decide (n ∈ f.ids))
    {m : Mem} (h : n ∈ m.ids) : ∃ a, m.look g = some a :=
  Option.isSome_iff_exists.1 ((look_isSome hg m).trans (by simpa using h))

theorem mem_forests {m : Mem} {f : Forest} : f ∈ m.forests ↔ f = m.loose ∨ ∃ d, m.root d = some f := by
  simp only [forests, List.mem_cons, List.mem_filterMap, id_eq, root]
  constructor
  · rintro (h | ⟨a, ha, rfl⟩)
    · exact .inl h
    · obtain ⟨d, hd⟩ := List.getElem?_of_mem ha
      exact .inr ⟨d, by simp [hd]⟩
  · rintro (h | ⟨d, hd⟩)
    · exact .inl h
    · right
      cases h : m.docs[d]? with
      | none => simp [h] at hd
      | some a =>
        simp [h] at hd
        exact ⟨a, List.mem_of_getElem? h, hd⟩

theorem mem_ids {m : Mem} {n : Nat} : n ∈ m.ids ↔ n ∈ m.loose.ids ∨ ∃ d f, m.root d = some f ∧ n ∈ f.ids := by
  rw [ids_eq, mem_allIds]
  constructor
  · rintro ⟨f, hf, hn⟩
    rcases mem_forests.1 hf with rfl | ⟨d, hd⟩
    · exact .inl hn
    · exact .inr ⟨d, f, hd, hn⟩
  · rintro (h | ⟨d, f, hd, hn⟩)
    · exact ⟨_, mem_forests.2 (.inl rfl), h⟩
    · exact ⟨_, mem_forests.2 (.inr ⟨d, hd⟩), hn⟩

theorem forests_map (m : Mem) (g : Forest → Forest) : (m.map g).forests = m.forests.map g := by
  simp only [forests, map, List.map_cons, List.cons.injEq, true_and]
  generalize m.docs = l
  induction l with
  | nil => rfl
  | cons a l ih => cases a <;> simp [ih]

theorem root_map (m : Mem) (g : Forest → Forest) (d : Nat) : (m.map g).root d = (m.root d).map g := by
  simp only [root, map, List.getElem?_map]
  rcases h : m.docs[d]? with _ | (_ | f) <;> rfl

theorem map_loose (m : Mem) (g : Forest → Forest) : (m.map g).loose = g m.loose := rfl

theorem root_set {m : Mem} {d : Nat} {f : Option Forest} (h : (m.root d).isSome) (e : Nat) :
    Mem.root { m with docs := m.docs.set d f } e = if e = d then f else m.root e := by
  have hd : d < m.docs.length := by
    simp only [root] at h
    rcases Nat.lt_or_ge d m.docs.length with h' | h'
    · exact h'
    · simp [List.getElem?_eq_none h'] at h
  simp only [root, List.getElem?_set]
  by_cases e' : e = d
  · subst e'; simp [hd]
  · have : ¬ d = e := fun h => e' h.symm
    simp [e', this]

theorem root_append {m : Mem} {f : Option Forest} {k : Nat} (e : Nat) :
    Mem.root { m with docs := m.docs ++ [f], nextNode := k } e = if e = m.docs.length then f else m.root e := by
  simp only [root, List.getElem?_append]
  split
  · rename_i h
    have : e ≠ m.docs.length := by omega
    simp [this]
  · rename_i h
    by_cases e' : e = m.docs.length
    · subst e'; simp
    · have : e - m.docs.length ≠ 0 := by omega
      obtain ⟨i, hi⟩ := Nat.exists_eq_succ_of_ne_zero this
      simp [hi, e', List.getElem?_eq_none (by omega : m.docs.length ≤ e)]

theorem root_lt {m : Mem} {d : Nat} {f : Forest} (h : m.root d = some f) : d < m.docs.length := by
  simp only [root] at h
  rcases Nat.lt_or_ge d m.docs.length with h' | h'
  · exact h'
  · simp [List.getElem?_eq_none h'] at h

/-- Setting the root of a document, in terms of the forests. -/
theorem perm_set {m : Mem} {d : Nat} {f : Forest} (h : m.root d = some f) :
    m.ids.Perm (f.ids ++ Mem.ids { m with docs := m.docs.set d none }) := by
  have key : ∀ (l : List (Option Forest)) (d : Nat), l[d]?.join = some f →
      (allIds (l.filterMap id)).Perm (f.ids ++ allIds ((l.set d none).filterMap id)) := by
    intro l
    induction l with
    | nil => intro d h; simp at h
    | cons a l ih =>
      intro d h
      cases d with
      | zero =>
        simp at h
        subst h
        simp [allIds]
      | succ d =>
        simp at h
        have := ih d h
        cases a with
        | none => simpa using this
        | some g =>
          simp only [List.set_cons_succ, List.filterMap_cons, id_eq, allIds, List.flatMap_cons] at this ⊢
          refine (List.Perm.append_left _ this).trans ?_
          rw [← List.append_assoc, ← List.append_assoc]
          exact List.Perm.append_right _ List.perm_append_comm
  have := key m.docs d h
  simp only [ids, forests, List.flatMap_cons]
  refine (List.Perm.append_left _ this).trans ?_
  rw [← List.append_assoc, ← List.append_assoc]
  exact List.Perm.append_right _ List.perm_append_comm

/-- Giving an empty document a root. -/
theorem perm_set_some {m : Mem} {d : Nat} {f g : Forest} (h : m.root d = some f) :
    (Mem.ids { m with docs := m.docs.set d (some g) }).Perm (g.ids ++ Mem.ids { m with docs := m.docs.set d none }) := by
  have hs : (m.root d).isSome := by simp [h]
  have h1 : Mem.root { m with docs := m.docs.set d (some g) } d = some g := by rw [root_set hs]; simp
  have := perm_set h1
  simpa [List.set_set] using this

theorem ids_append_doc {m : Mem} {f : Forest} {k : Nat} :
    (Mem.ids { m with docs := m.docs ++ [some f], nextNode := k }) = m.ids ++ f.ids := by
  simp [ids, forests]

theorem ids_append_none {m : Mem} :
    (Mem.ids { m with docs := m.docs ++ [none] }) = m.ids := by
  simp [ids, forests]

theorem ids_loose {m : Mem} {f : Forest} {k : Nat} :
    Mem.ids { m with loose := f, nextNode := k } = f.ids ++ allIds (m.docs.filterMap id) := by
  simp [ids, forests, allIds]

theorem ids_split (m : Mem) : m.ids = m.loose.ids ++ allIds (m.docs.filterMap id) := by
  simp [ids, forests, allIds]

end Mem

end Axl.Py
