/-
Facts about the forests of `Verif.Model.Py`: what looking a node up finds, and which nodes are there
after a change.
-/
import Verif.Spec.Py

namespace Axl.Py
namespace Forest

theorem or_isSome {α : Type} (a b : Option α) : (a.or b).isSome = (a.isSome || b.isSome) := by
  cases a <;> rfl

theorem nameOf_isSome (n : Nat) : ∀ f : Forest, (f.nameOf n).isSome = decide (n ∈ f.ids)
  | nil => by simp [nameOf, ids]
  | node m s d k x => by
    by_cases h : m = n
    · simp [nameOf, ids, h]
    · have h' : ¬ n = m := fun e => h e.symm
      simp [nameOf, ids, h, h', or_isSome, nameOf_isSome n k, nameOf_isSome n x]

theorem docOf_isSome (n : Nat) : ∀ f : Forest, (f.docOf n).isSome = decide (n ∈ f.ids)
  | nil => by simp [docOf, ids]
  | node m s d k x => by
    by_cases h : m = n
    · simp [docOf, ids, h]
    · have h' : ¬ n = m := fun e => h e.symm
      simp [docOf, ids, h, h', or_isSome, docOf_isSome n k, docOf_isSome n x]

theorem kidsOf_isSome (n : Nat) : ∀ f : Forest, (f.kidsOf n).isSome = decide (n ∈ f.ids)
  | nil => by simp [kidsOf, ids]
  | node m s d k x => by
    by_cases h : m = n
    · simp [kidsOf, ids, h]
    · have h' : ¬ n = m := fun e => h e.symm
      simp [kidsOf, ids, h, h', or_isSome, kidsOf_isSome n k, kidsOf_isSome n x]

theorem nexts_isSome (n : Nat) : ∀ f : Forest, (f.nexts n).isSome = decide (n ∈ f.ids)
  | nil => by simp [nexts, ids]
  | node m s d k x => by
    by_cases h : m = n
    · simp [nexts, ids, h]
    · have h' : ¬ n = m := fun e => h e.symm
      simp [nexts, ids, h, h', or_isSome, nexts_isSome n k, nexts_isSome n x]

theorem prevs_isSome (n : Nat) : ∀ (f : Forest) acc, (f.prevs n acc).isSome = decide (n ∈ f.ids)
  | nil, _ => by simp [prevs, ids]
  | node m s d k x, acc => by
    by_cases h : m = n
    · simp [prevs, ids, h]
    · have h' : ¬ n = m := fun e => h e.symm
      simp [prevs, ids, h, h', or_isSome, prevs_isSome n k, prevs_isSome n x]

theorem parentOf_isSome (n : Nat) : ∀ (f : Forest) up, (f.parentOf n up).isSome = decide (n ∈ f.ids)
  | nil, _ => by simp [parentOf, ids]
  | node m s d k x, up => by
    by_cases h : m = n
    · simp [parentOf, ids, h]
    · have h' : ¬ n = m := fun e => h e.symm
      simp [parentOf, ids, h, h', or_isSome, parentOf_isSome n k, parentOf_isSome n x]

theorem sub_isSome (n : Nat) : ∀ f : Forest, (f.sub n).isSome = decide (n ∈ f.ids)
  | nil => by simp [sub, ids]
  | node m s d k x => by
    by_cases h : m = n
    · simp [sub, ids, h]
    · have h' : ¬ n = m := fun e => h e.symm
      simp [sub, ids, h, h', or_isSome, sub_isSome n k, sub_isSome n x]

theorem tops_ids {f : Forest} {x : Nat × List Char} (h : x ∈ f.tops) : x.1 ∈ f.ids := by
  induction f with
  | nil => simp [tops] at h
  | node m s d k y _ ih =>
    simp only [tops, List.mem_cons] at h
    rcases h with h | h
    · simp [h, ids]
    · simp [ids, ih h]

theorem kidsOf_ids {n : Nat} {f k : Forest} (h : f.kidsOf n = some k) : ∀ i ∈ k.ids, i ∈ f.ids := by
  induction f with
  | nil => simp [kidsOf] at h
  | node m s d k' y ihk ihy =>
    intro i hi
    simp only [kidsOf] at h
    split at h
    · cases h; simp [ids, hi]
    · rcases Option.or_eq_some_iff.1 h with h | ⟨_, h⟩
      · simp [ids, ihk h i hi]
      · simp [ids, ihy h i hi]

theorem nexts_ids {n : Nat} {f : Forest} {l} (h : f.nexts n = some l) : ∀ i ∈ l, i.1 ∈ f.ids := by
  induction f with
  | nil => simp [nexts] at h
  | node m s d k' y ihk ihy =>
    intro i hi
    simp only [nexts] at h
    split at h
    · cases h; simp [ids, tops_ids hi]
    · rcases Option.or_eq_some_iff.1 h with h | ⟨_, h⟩
      · simp [ids, ihk h i hi]
      · simp [ids, ihy h i hi]

theorem prevs_ids {n : Nat} {f : Forest} : ∀ {acc l}, f.prevs n acc = some l → ∀ i ∈ l, i.1 ∈ f.ids ∨ i ∈ acc := by
  induction f with
  | nil => intro acc l h; simp [prevs] at h
  | node m s d k' y ihk ihy =>
    intro acc l h i hi
    simp only [prevs] at h
    split at h
    · cases h; exact .inr hi
    · rcases Option.or_eq_some_iff.1 h with h | ⟨_, h⟩
      · rcases ihk h i hi with h | h
        · simp [ids, h]
        · simp at h
      · rcases ihy h i hi with h | h
        · simp [ids, h]
        · rcases List.mem_cons.1 h with h | h
          · simp [ids, h]
          · exact .inr h

theorem parentOf_ids {n : Nat} {f : Forest} : ∀ {up p}, f.parentOf n up = some (some p) → p ∈ f.ids ∨ up = some p := by
  induction f with
  | nil => intro up p h; simp [parentOf] at h
  | node m s d k' y ihk ihy =>
    intro up p h
    simp only [parentOf] at h
    split at h
    · cases h; exact .inr rfl
    · rcases Option.or_eq_some_iff.1 h with h | ⟨_, h⟩
      · rcases ihk h with h | h
        · simp [ids, h]
        · cases h; simp [ids]
      · rcases ihy h with h | h
        · simp [ids, h]
        · exact .inr h

theorem called_mem {s : List Char} {l : List (Nat × List Char)} {i : Nat} (h : called s l = some i) : ∃ x ∈ l, x.1 = i := by
  simp only [called, Option.map_eq_some_iff] at h
  obtain ⟨x, hx, rfl⟩ := h
  exact ⟨x, List.mem_of_find?_eq_some hx, rfl⟩

theorem findBelow_ids {s : List Char} {f : Forest} {i : Nat} (h : f.findBelow s = some i) : i ∈ f.ids := by
  induction f with
  | nil => simp [findBelow] at h
  | node m s' d k' y ihk ihy =>
    simp only [findBelow] at h
    rcases Option.or_eq_some_iff.1 h with h | ⟨_, h⟩
    · rcases Option.or_eq_some_iff.1 h with h | ⟨_, h⟩
      · obtain ⟨x, hx, rfl⟩ := called_mem h
        simp [ids, tops_ids hx]
      · simp [ids, ihk h]
    · simp [ids, ihy h]

theorem go_isSome (f : Forest) (n : Nat) (k : Nav) : (k.go f n).isSome = decide (n ∈ f.ids) := by
  cases k <;> simp [Nav.go, kidsOf_isSome, nexts_isSome, prevs_isSome, parentOf_isSome]

theorem go_ids {f : Forest} {n r : Nat} {k : Nav} (h : k.go f n = some (some r)) : r ∈ f.ids := by
  have hd : ∀ {l : List (Nat × List Char)}, l.head?.map (·.1) = some r → ∃ x ∈ l, x.1 = r := by
    intro l hl
    cases l with
    | nil => simp at hl
    | cons a l => simp at hl; exact ⟨a, by simp, hl⟩
  cases k <;> simp only [Nav.go, Option.map_eq_some_iff] at h
  case firstChild =>
    obtain ⟨k, hk, h⟩ := h
    obtain ⟨x, hx, rfl⟩ := hd (Option.map_eq_some_iff.2 h)
    exact kidsOf_ids hk _ (tops_ids hx)
  case next =>
    obtain ⟨l, hl, h⟩ := h
    obtain ⟨x, hx, rfl⟩ := hd (Option.map_eq_some_iff.2 h)
    exact nexts_ids hl _ hx
  case previous =>
    obtain ⟨l, hl, h⟩ := h
    obtain ⟨x, hx, rfl⟩ := hd (Option.map_eq_some_iff.2 h)
    rcases prevs_ids hl _ hx with h | h
    · exact h
    · simp at h
  case parent =>
    rcases parentOf_ids h with h | h
    · exact h
    · simp at h
  case nextCalled s =>
    obtain ⟨l, hl, h⟩ := h
    obtain ⟨x, hx, rfl⟩ := called_mem h
    exact nexts_ids hl _ hx
  case previousCalled s =>
    obtain ⟨l, hl, h⟩ := h
    obtain ⟨x, hx, rfl⟩ := called_mem h
    rcases prevs_ids hl _ hx with h | h
    · exact h
    · simp at h
  case childCalled s =>
    obtain ⟨k, hk, h⟩ := h
    obtain ⟨x, hx, rfl⟩ := called_mem h
    exact kidsOf_ids hk _ (tops_ids hx)
  case findCalled s =>
    obtain ⟨k, hk, h⟩ := h
    rcases Option.or_eq_some_iff.1 h with h | ⟨_, h⟩
    · obtain ⟨x, hx, rfl⟩ := called_mem h
      exact kidsOf_ids hk _ (tops_ids hx)
    · exact kidsOf_ids hk _ (findBelow_ids h)
  case nthChild i =>
    obtain ⟨k, hk, a, ha, rfl⟩ := h
    exact kidsOf_ids hk _ (tops_ids (List.mem_of_getElem? ha))

theorem walk_ids {l : List (List Char)} : ∀ {f : Forest} {r : Nat}, World.walk f l = some r → r ∈ f.ids := by
  induction l with
  | nil => intro f r h; simp [World.walk] at h
  | cons s l ih =>
    intro f r h
    cases l with
    | nil =>
      simp only [World.walk] at h
      obtain ⟨x, hx, rfl⟩ := called_mem h
      exact tops_ids hx
    | cons s' l =>
      simp only [World.walk] at h
      split at h
      · cases h
      · split at h
        · cases h
        · rename_i hk
          exact kidsOf_ids hk _ (ih h)

theorem ids_append (f g : Forest) : (f.append g).ids = f.ids ++ g.ids := by
  induction f with
  | nil => simp [append, ids]
  | node m s d k x _ ih => simp [append, ids, ih]

theorem tops_append (f g : Forest) : (f.append g).tops = f.tops ++ g.tops := by
  induction f with
  | nil => simp [append, tops]
  | node m s d k x _ ih => simp [append, tops, ih]

theorem ids_setDoc (d : Option Nat) (f : Forest) : (f.setDoc d).ids = f.ids := by cases f <;> rfl

theorem without_of_not_mem {n : Nat} {f : Forest} (h : n ∉ f.ids) : f.without n = f := by
  induction f with
  | nil => rfl
  | node m s d k x ihk ihx =>
    simp only [ids, List.mem_cons, List.mem_append, not_or] at h
    have : m ≠ n := fun e => h.1 e.symm
    simp [without, this, ihk h.2.1, ihx h.2.2]

theorem sub_of_not_mem {n : Nat} {f : Forest} (h : n ∉ f.ids) : f.sub n = none := by
  have := sub_isSome n f
  simpa [h] using this

theorem addKid_of_not_mem {n : Nat} {t f : Forest} (h : n ∉ f.ids) : f.addKid n t = f := by
  induction f with
  | nil => rfl
  | node m s d k x ihk ihx =>
    simp only [ids, List.mem_cons, List.mem_append, not_or] at h
    have : m ≠ n := fun e => h.1 e.symm
    simp only [addKid, if_neg this, ihk h.2.1, ihx h.2.2]

theorem addAfter_of_not_mem {n : Nat} {t f : Forest} (h : n ∉ f.ids) : f.addAfter n t = f := by
  induction f with
  | nil => rfl
  | node m s d k x ihk ihx =>
    simp only [ids, List.mem_cons, List.mem_append, not_or] at h
    have : m ≠ n := fun e => h.1 e.symm
    simp only [addAfter, if_neg this, ihk h.2.1, ihx h.2.2]

theorem nodup_node {m : Nat} {s d k x} (h : (node m s d k x).ids.Nodup) :
    m ∉ k.ids ∧ m ∉ x.ids ∧ k.ids.Nodup ∧ x.ids.Nodup ∧ ∀ i ∈ k.ids, i ∉ x.ids := by
  simp only [ids, List.nodup_cons, List.mem_append, not_or, List.nodup_append] at h
  exact ⟨h.1.1, h.1.2, h.2.1, h.2.2.1, fun i hi hj => h.2.2.2 i hi i hj rfl⟩

theorem sub_perm {n : Nat} {f t : Forest} (h : f.ids.Nodup) (ht : f.sub n = some t) :
    f.ids.Perm (t.ids ++ (f.without n).ids) := by
  induction f generalizing t with
  | nil => simp [sub] at ht
  | node m s d k x ihk ihx =>
    obtain ⟨_, _, hk, hx, hd⟩ := nodup_node h
    simp only [sub] at ht
    by_cases e : m = n
    · simp only [e, if_true, Option.some.injEq] at ht
      subst ht
      simp [without, e, ids]
    · simp only [e, if_false] at ht
      simp only [without, e, if_false, ids]
      rcases Option.or_eq_some_iff.1 ht with ht | ⟨hn, ht⟩
      · have hnk : n ∈ k.ids := by
          have := sub_isSome n k
          simpa [ht] using this
        rw [without_of_not_mem (hd n hnk)]
        have := ihk hk ht
        refine (List.Perm.cons m (List.Perm.append_right x.ids this)).trans ?_
        rw [List.append_assoc]
        exact (List.perm_middle (a := m) (l₁ := t.ids)).symm
      · have hnk : n ∉ k.ids := by
          have := sub_isSome n k
          simpa [hn] using this
        rw [without_of_not_mem hnk]
        have := ihx hx ht
        refine (List.Perm.cons m (List.Perm.append_left k.ids this)).trans ?_
        refine (List.Perm.cons m ?_).trans (List.perm_middle (a := m) (l₁ := t.ids)).symm
        rw [← List.append_assoc, ← List.append_assoc]
        exact List.Perm.append_right _ List.perm_append_comm

theorem addKid_perm {p : Nat} {t f : Forest} (h : f.ids.Nodup) (hp : p ∈ f.ids) :
    (f.addKid p t).ids.Perm (f.ids ++ t.ids) := by
  induction f with
  | nil => simp [ids] at hp
  | node m s d k x ihk ihx =>
    obtain ⟨hmk, hmx, hk, hx, hd⟩ := nodup_node h
    by_cases e : m = p
    · simp only [addKid, e, if_true, ids, ids_append, List.cons_append, List.append_assoc]
      refine List.Perm.cons _ (List.Perm.append_left _ List.perm_append_comm)
    · simp only [addKid, e, if_false, ids, List.cons_append, List.append_assoc]
      refine List.Perm.cons _ ?_
      have hp' : p ∈ k.ids ∨ p ∈ x.ids := by
        simp only [ids, List.mem_cons, List.mem_append] at hp
        exact hp.resolve_left fun h => e h.symm
      rcases hp' with hp | hp
      · rw [addKid_of_not_mem (hd p hp)]
        refine (List.Perm.append_right _ (ihk hk hp)).trans ?_
        rw [List.append_assoc]
        exact List.Perm.append_left _ List.perm_append_comm
      · rw [addKid_of_not_mem (fun h => hd p h hp)]
        exact List.Perm.append_left _ (ihx hx hp)

theorem addAfter_perm {p : Nat} {t f : Forest} (h : f.ids.Nodup) (hp : p ∈ f.ids) :
    (f.addAfter p t).ids.Perm (f.ids ++ t.ids) := by
  induction f with
  | nil => simp [ids] at hp
  | node m s d k x ihk ihx =>
    obtain ⟨hmk, hmx, hk, hx, hd⟩ := nodup_node h
    by_cases e : m = p
    · simp only [addAfter, e, if_true, ids, ids_append, List.cons_append, List.append_assoc]
      refine List.Perm.cons _ (List.Perm.append_left _ List.perm_append_comm)
    · simp only [addAfter, e, if_false, ids, List.cons_append, List.append_assoc]
      refine List.Perm.cons _ ?_
      have hp' : p ∈ k.ids ∨ p ∈ x.ids := by
        simp only [ids, List.mem_cons, List.mem_append] at hp
        exact hp.resolve_left fun h => e h.symm
      rcases hp' with hp | hp
      · rw [addAfter_of_not_mem (hd p hp)]
        refine (List.Perm.append_right _ (ihk hk hp)).trans ?_
        rw [List.append_assoc]
        exact List.Perm.append_left _ List.perm_append_comm
      · rw [addAfter_of_not_mem (fun h => hd p h hp)]
        exact List.Perm.append_left _ (ihx hx hp)

/-- The numbers of the nodes at the top level. -/
def topIds (f : Forest) : List Nat := f.tops.map (·.1)

theorem topIds_ids {f : Forest} {n : Nat} (h : n ∈ f.topIds) : n ∈ f.ids := by
  obtain ⟨x, hx, rfl⟩ := List.mem_map.1 h
  exact tops_ids hx

theorem topIds_append (f g : Forest) : (f.append g).topIds = f.topIds ++ g.topIds := by
  simp [topIds, tops_append]

theorem topIds_addKid (p : Nat) (t f : Forest) : (f.addKid p t).topIds = f.topIds := by
  induction f with
  | nil => rfl
  | node m s d k x _ ih =>
    by_cases e : m = p
    · simp [addKid, e, topIds, tops]
    · simp only [topIds] at ih
      simp [addKid, e, topIds, tops, ih]

theorem topIds_addAfter {p : Nat} {t f : Forest} (h : p ∉ f.topIds) : (f.addAfter p t).topIds = f.topIds := by
  induction f with
  | nil => rfl
  | node m s d k x _ ih =>
    simp only [topIds, tops, List.map_cons, List.mem_cons, not_or] at h
    have e : ¬ m = p := fun e => h.1 e.symm
    have := ih h.2
    simp only [topIds] at this
    simp [addAfter, e, topIds, tops, this]

theorem mem_topIds_without {n i : Nat} {f : Forest} (h : f.ids.Nodup) (hn : n ∈ f.topIds) :
    i ∈ (f.without n).topIds ↔ i ∈ f.topIds ∧ i ≠ n := by
  induction f with
  | nil => simp [topIds, tops] at hn
  | node m s d k x _ ih =>
    obtain ⟨_, hmx, hk, hx, hd⟩ := nodup_node h
    by_cases e : m = n
    · subst e
      have hm : ∀ j, j ∈ x.topIds → j ≠ m := fun j hj he => hmx (he ▸ topIds_ids hj)
      simp only [without, if_true]
      show i ∈ x.topIds ↔ i ∈ (m :: x.topIds) ∧ i ≠ m
      simp only [List.mem_cons]
      constructor
      · intro hi; exact ⟨.inr hi, hm i hi⟩
      · rintro ⟨h | h, h'⟩
        · exact absurd h h'
        · exact h
    · have hn' : n ∈ x.topIds := by
        have : n ∈ m :: x.topIds := hn
        rcases List.mem_cons.1 this with h | h
        · exact absurd h.symm e
        · exact h
      simp only [without, e, if_false]
      show i ∈ m :: (x.without n).topIds ↔ i ∈ m :: x.topIds ∧ i ≠ n
      simp only [List.mem_cons, ih hx hn']
      constructor
      · rintro (h | h)
        · exact ⟨.inl h, h ▸ e⟩
        · exact ⟨.inr h.1, h.2⟩
      · rintro ⟨h | h, h'⟩
        · exact .inl h
        · exact .inr ⟨h, h'⟩

theorem topIds_without_below {n : Nat} {f : Forest} (hn : n ∉ f.topIds) : (f.without n).topIds = f.topIds := by
  induction f with
  | nil => rfl
  | node m s d k x _ ih =>
    simp only [topIds, tops, List.map_cons, List.mem_cons, not_or] at hn
    have e : ¬ m = n := fun e => hn.1 e.symm
    have := ih hn.2
    simp only [topIds] at this
    simp [without, e, topIds, tops, this]

theorem not_top_of_parentOf {r p : Nat} {f : Forest} (h : f.ids.Nodup) (hr : f.parentOf r none = some (some p)) :
    r ∉ f.topIds := by
  induction f with
  | nil => simp [topIds, tops]
  | node m s d k x _ ih =>
    obtain ⟨hmk, hmx, hk, hx, hd⟩ := nodup_node h
    simp only [parentOf] at hr
    split at hr
    · cases hr
    · rename_i e
      show r ∉ m :: x.topIds
      simp only [List.mem_cons, not_or]
      refine ⟨fun h => e h.symm, ?_⟩
      rcases Option.or_eq_some_iff.1 hr with hr | ⟨_, hr⟩
      · have hrk : r ∈ k.ids := by
          have := parentOf_isSome r k (some m)
          simpa [hr] using this
        exact fun h => hd r hrk (topIds_ids h)
      · exact ih hx hr

/-- The tree of a node is the node and what is below it. -/
theorem mem_sub {n : Nat} {f t : Forest} (ht : f.sub n = some t) : n ∈ t.ids := by
  induction f generalizing t with
  | nil => simp [sub] at ht
  | node m s d k x ihk ihx =>
    simp only [sub] at ht
    split at ht
    · rename_i e; cases ht; simp [ids, e]
    · rcases Option.or_eq_some_iff.1 ht with ht | ⟨_, ht⟩
      · exact ihk ht
      · exact ihx ht

theorem nil_of_topIds {f : Forest} (h : f.topIds = []) : f = nil := by
  cases f with
  | nil => rfl
  | node => simp [topIds, tops] at h

/-- Every node says a document that satisfies `P`. -/
def AllDoc (P : Option Nat → Prop) : Forest → Prop
  | nil => True
  | node _ _ d k x => P d ∧ AllDoc P k ∧ AllDoc P x

theorem AllDoc.imp {P Q : Option Nat → Prop} (h : ∀ e, P e → Q e) : ∀ {f : Forest}, AllDoc P f → AllDoc Q f
  | nil, _ => trivial
  | node _ _ _ _ _, ⟨a, b, c⟩ => ⟨h _ a, AllDoc.imp h b, AllDoc.imp h c⟩

theorem AllDoc.append {P} {f g : Forest} (hf : AllDoc P f) (hg : AllDoc P g) : AllDoc P (f.append g) := by
  induction f with
  | nil => exact hg
  | node m s d k x _ ih => exact ⟨hf.1, hf.2.1, ih hf.2.2⟩

theorem AllDoc.without {P} {f : Forest} (n : Nat) (hf : AllDoc P f) : AllDoc P (f.without n) := by
  induction f with
  | nil => exact hf
  | node m s d k x ihk ihx =>
    simp only [Forest.without]
    split
    · exact hf.2.2
    · exact ⟨hf.1, ihk hf.2.1, ihx hf.2.2⟩

theorem AllDoc.sub {P} {f t : Forest} {n : Nat} (hf : AllDoc P f) (h : f.sub n = some t) : AllDoc P t := by
  induction f generalizing t with
  | nil => simp [Forest.sub] at h
  | node m s d k x ihk ihx =>
    simp only [Forest.sub] at h
    split at h
    · cases h; exact ⟨hf.1, hf.2.1, trivial⟩
    · rcases Option.or_eq_some_iff.1 h with h | ⟨_, h⟩
      · exact ihk hf.2.1 h
      · exact ihx hf.2.2 h

theorem AllDoc.setDoc {P} {f : Forest} {e : Option Nat} (hf : AllDoc P f) (he : P e) : AllDoc P (f.setDoc e) := by
  cases f with
  | nil => trivial
  | node m s d k x => exact ⟨he, hf.2.1, hf.2.2⟩

theorem AllDoc.addKid {P} {f t : Forest} {p : Nat} (hf : AllDoc P f) (ht : p ∈ f.ids → AllDoc P t) :
    AllDoc P (f.addKid p t) := by
  induction f with
  | nil => exact hf
  | node m s d k x ihk ihx =>
    simp only [Forest.addKid]
    split
    · rename_i e
      exact ⟨hf.1, hf.2.1.append (ht (by simp [ids, e])), hf.2.2⟩
    · exact ⟨hf.1, ihk hf.2.1 (fun h => ht (by simp [ids, h])), ihx hf.2.2 (fun h => ht (by simp [ids, h]))⟩

theorem AllDoc.addAfter {P} {f t : Forest} {p : Nat} (hf : AllDoc P f) (ht : p ∈ f.ids → AllDoc P t) :
    AllDoc P (f.addAfter p t) := by
  induction f with
  | nil => exact hf
  | node m s d k x ihk ihx =>
    simp only [Forest.addAfter]
    split
    · rename_i e
      exact ⟨hf.1, hf.2.1, (ht (by simp [ids, e])).append hf.2.2⟩
    · exact ⟨hf.1, ihk hf.2.1 (fun h => ht (by simp [ids, h])), ihx hf.2.2 (fun h => ht (by simp [ids, h]))⟩

theorem AllDoc.docOf {P} {f : Forest} {n : Nat} {e : Option Nat} (hf : AllDoc P f) (h : f.docOf n = some e) : P e := by
  induction f with
  | nil => simp [Forest.docOf] at h
  | node m s d k x ihk ihx =>
    simp only [Forest.docOf] at h
    split at h
    · cases h; exact hf.1
    · rcases Option.or_eq_some_iff.1 h with h | ⟨_, h⟩
      · exact ihk hf.2.1 h
      · exact ihx hf.2.2 h

end Forest

theorem build_ids (d : Nat) : ∀ (s : Shape) (i : Nat), i ≤ (s.build d i).2 ∧ (s.build d i).1.ids.Nodup ∧
    (∀ n, n ∈ (s.build d i).1.ids ↔ i ≤ n ∧ n < (s.build d i).2) ∧ (s.build d i).1.AllDoc (· = some d)
  | .nil, i => by
    refine ⟨Nat.le_refl _, by simp [Shape.build, Forest.ids], ?_, trivial⟩
    intro n
    simp only [Shape.build, Forest.ids, List.not_mem_nil, false_iff]
    omega
  | .node s k x, i => by
    obtain ⟨a1, a2, a3, a4⟩ := build_ids d k (i + 1)
    obtain ⟨b1, b2, b3, b4⟩ := build_ids d x (k.build d (i + 1)).2
    simp only [Shape.build]
    refine ⟨by omega, ?_, ?_, ⟨rfl, a4, b4⟩⟩
    · simp only [Forest.ids, List.nodup_cons, List.mem_append, not_or, List.nodup_append]
      refine ⟨⟨fun h => ?_, fun h => ?_⟩, a2, b2, ?_⟩
      · have := (a3 i).1 h; omega
      · have := (b3 i).1 h; omega
      · intro p hp q hq e
        have := (a3 p).1 hp
        have := (b3 q).1 hq
        omega
    · intro n
      simp only [Forest.ids, List.mem_cons, List.mem_append, a3, b3]
      omega

end Axl.Py
