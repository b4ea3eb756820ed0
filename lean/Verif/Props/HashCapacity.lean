/-
C09: the number of items and the capacity of a hash.
-/
import Verif.Model.HashCapacity
import Verif.Spec.HashCapacity
import Verif.Props.Hash

namespace Axl
open Spec.Map
namespace AxlHash
variable {κ δ φ : Type}

theorem insertNode_size {h h' : AxlHash κ δ φ} {k : κ} {n : HashNode κ δ φ} {b : Bool} (hh : h.insertNode k n b = some h') :
    h'.hashSize = h.hashSize ∧ h'.step = h.step ∧ h'.items = if b then h.items + 1 else h.items := by
  simp only [insertNode, Option.bind_eq_bind, Option.bind_eq_some_iff] at hh
  obtain ⟨p, -, c, -, rfl⟩ := by simpa using hh
  exact ⟨rfl, rfl, rfl⟩

theorem rehash_size : ∀ {ns : List (HashNode κ δ φ)} {h h' : AxlHash κ δ φ}, h.rehash ns = some h' →
    h'.hashSize = h.hashSize ∧ h'.step = h.step ∧ h'.items = h.items
  | [], h, h', hh => by simp only [rehash, Option.some.injEq] at hh; subst hh; exact ⟨rfl, rfl, rfl⟩
  | n :: ns, h, h', hh => by
    simp only [rehash, Option.bind_eq_bind, Option.bind_eq_some_iff] at hh
    obtain ⟨h1, e1, e2⟩ := hh
    obtain ⟨a, b, c⟩ := insertNode_size e1
    obtain ⟨a', b', c'⟩ := rehash_size e2
    simp only [Bool.false_eq_true, if_false] at c
    exact ⟨a'.trans a, b'.trans b, c'.trans c⟩

/-- How a call of insert changes the size of the table. -/
theorem insertFull_size {h h' : AxlHash κ δ φ} {k : κ} {kd : Option φ} {d : Option δ} {dd : Option φ}
    (hh : h.insertFull k kd d dd = some h') : h'.step = h.step ∧
    ((h.hashSize = 0 ∧ h'.hashSize = h.step ∧ h'.items = h.items + 1) ∨
     (h.hashSize ≠ 0 ∧ h.hashSize = h.items ∧ h'.hashSize = h.hashSize + h.step ∧ h'.items = h.items + 1) ∨
     (h.hashSize ≠ 0 ∧ h'.hashSize = h.hashSize)) := by
  by_cases h0 : h.hashSize = 0
  · simp only [insertFull, h0, if_true] at hh
    obtain ⟨a, b, c⟩ := insertNode_size hh
    exact ⟨b, .inl ⟨h0, a, c⟩⟩
  · simp only [insertFull, h0, if_false, Option.bind_eq_bind, Option.bind_eq_some_iff] at hh
    obtain ⟨node, -, hh⟩ := hh
    cases node with
    | none =>
      by_cases hf : h.hashSize = h.items
      · simp only [if_pos hf, Option.bind_eq_some_iff] at hh
        obtain ⟨h1, e1, e2⟩ := hh
        obtain ⟨a, b, c⟩ := insertNode_size e2
        simp only [if_true] at c
        simp only [grow] at e1
        obtain ⟨a', b', c'⟩ := rehash_size e1
        simp only at a' b' c'
        exact ⟨b.trans b', .inr (.inl ⟨h0, hf, by omega, by omega⟩)⟩
      · simp only [if_neg hf, Option.bind_some] at hh
        obtain ⟨a, b, c⟩ := insertNode_size hh
        exact ⟨b, .inr (.inr ⟨h0, a⟩)⟩
    | some n =>
      simp only [Option.bind_eq_some_iff] at hh
      obtain ⟨p, -, c, -, e⟩ := hh
      cases e
      exact ⟨rfl, .inr (.inr ⟨h0, rfl⟩)⟩

theorem removeCommon_size {h : AxlHash κ δ φ} {k : κ} {r d : Bool} {x : Bool × Deferred κ δ φ × AxlHash κ δ φ}
    (hh : h.removeCommon k r d = some x) : x.2.2.hashSize = h.hashSize ∧ x.2.2.step = h.step ∧ x.2.2.items ≤ h.items := by
  unfold removeCommon at hh
  split at hh
  · cases hh; exact ⟨rfl, rfl, Nat.le_refl _⟩
  · simp only [Option.bind_eq_bind, Option.bind_eq_some_iff] at hh
    obtain ⟨p, -, c, -, e⟩ := hh
    split at e
    · cases e; exact ⟨rfl, rfl, Nat.le_refl _⟩
    · split at e <;> cases e <;> exact ⟨rfl, rfl, Nat.sub_le _ _⟩

/-- A call that is not an insertion. -/
theorem exec_size {h h' : AxlHash κ δ φ} {op : Op κ δ φ} (ho : ∀ e, op ≠ .insert e) (hh : h.exec op = some h') :
    h'.hashSize = h.hashSize ∧ h'.step = h.step ∧ h'.items ≤ h.items := by
  cases op with
  | insert e => exact absurd rfl (ho e)
  | remove k =>
    simp only [exec, AxlHash.remove, Option.bind_eq_bind, Option.map_eq_some_iff, Option.bind_eq_some_iff] at hh
    obtain ⟨x, ⟨y, e1, e2⟩, rfl⟩ := hh
    cases e2
    exact removeCommon_size e1
  | delete k =>
    simp only [exec, AxlHash.delete, Option.bind_eq_bind, Option.map_eq_some_iff, Option.bind_eq_some_iff] at hh
    obtain ⟨x, ⟨y, e1, e2⟩, rfl⟩ := hh
    cases e2
    exact removeCommon_size e1
  | removeDeferred k =>
    simp only [exec, AxlHash.removeDeferred, Option.map_eq_some_iff] at hh
    obtain ⟨x, e1, rfl⟩ := hh
    exact removeCommon_size e1

theorem lists_length {hash : κ → Nat} {eq : κ → κ → Bool} (hc : Consistent hash eq) {past : List (Op κ δ φ)} {a b : List (Entry κ δ φ)}
    (ha : Lists eq past a) (hb : Lists eq past b) : a.length = b.length := by
  have nd : ∀ l : List (Entry κ δ φ), Lists eq past l → l.Nodup := fun l hl =>
    hl.once.imp fun {x y} hxy e => by subst e; rw [hc.refl] at hxy; cases hxy
  exact ((List.perm_ext_iff_of_nodup (nd a ha) (nd b hb)).2 fun e => by rw [ha.mem, hb.mem]).length_eq

variable [NullKey κ]

/-- The size of the table after a history. -/
structure Sized (hash : κ → Nat) (eq : κ → κ → Bool) (step : Nat) (h : AxlHash κ δ φ) (past : List (Op κ δ φ)) (p : Nat) : Prop where
  hist : Hist hash eq h past
  same : h.step = step
  peak : Peak eq past p
  none : h.hashSize = 0 ↔ ¬ Used past
  size : h.hashSize = 0 ∨ ∃ m, h.hashSize = step * (m + 1) ∧ (m = 0 ∨ step * m < p)
  room : p ≤ h.hashSize

theorem peak_cons {hash : κ → Nat} {eq : κ → κ → Bool} (hc : Consistent hash eq) {past : List (Op κ δ φ)} {p : Nat} {op : Op κ δ φ}
    {h' : AxlHash κ δ φ} (hp : Peak eq past p) (hh : Hist hash eq h' (op :: past)) : Peak eq (op :: past) (max p h'.items) := by
  have hi : h'.items = (h'.table.flatten.map toEntry).length := by rw [hh.inv.items, List.length_map]
  have hl := hist_lists hh
  refine ⟨fun s hs es he => ?_, ?_⟩
  · rcases List.suffix_cons_iff.1 hs with rfl | hs
    · rw [lists_length hc he hl, ← hi]; omega
    · have := hp.bound s hs es he; omega
  · by_cases hle : p ≤ h'.items
    · exact ⟨_, List.suffix_refl _, _, hl, by omega⟩
    · obtain ⟨s, hs, es, he, e⟩ := hp.met
      exact ⟨s, hs.trans (List.suffix_cons _ _), es, he, by omega⟩

theorem sized_exec {hash : κ → Nat} {eq : κ → κ → Bool} (hc : Consistent hash eq) {step : Nat} (hs : 0 < step) {h : AxlHash κ δ φ}
    {past : List (Op κ δ φ)} {p : Nat} (hz : Sized hash eq step h past p) (op : Op κ δ φ) :
    ∃ h' p', h.exec op = some h' ∧ Sized hash eq step h' (op :: past) p' := by
  obtain ⟨h', he, hh⟩ := hist_exec hz.hist op
  have hp := peak_cons hc hz.peak hh
  have hr := hh.inv.room
  have hr0 := hz.hist.inv.room
  have hroom := hz.room
  refine ⟨h', _, he, hh, ?_, hp, ?_, ?_, ?_⟩
  all_goals
    by_cases ho : ∃ e, op = .insert e
    · obtain ⟨e, rfl⟩ := ho
      obtain ⟨h1, h2⟩ := insertFull_size he
      have hst := hz.same
      have hu : Used (Op.insert e :: past) := ⟨e, List.mem_cons_self⟩
      have hsz := hz.size
      first
        | exact h1.trans hst
        | (simp only [hu, not_true, iff_false]; rcases h2 with ⟨a, b, c⟩ | ⟨a, b, c, d⟩ | ⟨a, b⟩ <;> omega)
        | (rcases h2 with ⟨a, b, c⟩ | ⟨a, b, c, d⟩ | ⟨a, b⟩ <;> omega)
        | (rcases h2 with ⟨a, b, c⟩ | ⟨a, b, c, d⟩ | ⟨a, b⟩
           · exact .inr ⟨0, by rw [b, hst]; omega, .inl rfl⟩
           · rcases hsz with hsz | ⟨m, hm, hm'⟩
             · exact absurd hsz a
             · refine .inr ⟨m + 1, by rw [c, hm, hst, Nat.mul_add step (m + 1) 1]; omega, .inr ?_⟩
               rw [← hm]; omega
           · rcases hsz with hsz | ⟨m, hm, hm'⟩
             · exact absurd hsz a
             · exact .inr ⟨m, by rw [b, hm], hm'.imp_right fun x => by omega⟩)
    · obtain ⟨h1, h2, h3⟩ := exec_size (fun e x => ho ⟨e, x⟩) he
      have hu : Used (op :: past) ↔ Used past := by
        constructor
        · rintro ⟨e, hm⟩
          rcases List.mem_cons.1 hm with hm | hm
          · exact absurd ⟨e, hm.symm⟩ ho
          · exact ⟨e, hm⟩
        · rintro ⟨e, hm⟩; exact ⟨e, List.mem_cons_of_mem _ hm⟩
      first
        | exact h2.trans hz.same
        | (rw [hu, h1]; exact hz.none)
        | omega
        | (rcases hz.size with hsz | ⟨m, hm, hm'⟩
           · exact .inl (h1.trans hsz)
           · exact .inr ⟨m, h1.trans hm, hm'.imp_right fun x => by omega⟩)

theorem sized_run {hash : κ → Nat} {eq : κ → κ → Bool} (hc : Consistent hash eq) {step : Nat} (hs : 0 < step) :
    ∀ (ops : List (Op κ δ φ)) {h : AxlHash κ δ φ} {past : List (Op κ δ φ)} {p : Nat}, Sized hash eq step h past p →
    ∃ h' p', h.run ops = some h' ∧ Sized hash eq step h' (ops.reverse ++ past) p'
  | [], h, past, p, hz => ⟨h, p, rfl, hz⟩
  | op :: ops, h, past, p, hz => by
    obtain ⟨h1, p1, he, hz1⟩ := sized_exec hc hs hz op
    obtain ⟨h2, p2, he2, hz2⟩ := sized_run hc hs ops hz1
    exact ⟨h2, p2, by simp [run, he, he2], by simpa using hz2⟩

theorem lists_nil (eq : κ → κ → Bool) : Lists eq ([] : List (Op κ δ φ)) [] := ⟨fun e => by simp [present], List.Pairwise.nil⟩

theorem sized_new {hash : κ → Nat} {eq : κ → κ → Bool} (hc : Consistent hash eq) {step : Nat} (hs : 0 < step) :
    Sized hash eq step (newFull hash eq step : AxlHash κ δ φ) [] 0 := by
  refine ⟨hist_new hc hs, rfl, ⟨fun s h es he => ?_, ⟨[], List.suffix_refl _, [], lists_nil eq, rfl⟩⟩, ?_, .inl rfl, Nat.zero_le _⟩
  · have : s = [] := List.suffix_nil.1 h
    subst this
    rw [lists_length hc he (lists_nil eq)]
    exact Nat.le_refl _
  · simp [newFull, Used]

/-- **C09, the size.**  After any history of insertions and removals, `axl_hash_items` is the number of pairs and
`axl_hash_capacity` is 0 before the first insertion and then the smallest multiple of the step, not 0, that has room for the
most pairs that the hash has had at a time.  So the pairs never exceed the capacity, and the capacity never decreases. -/
theorem C09_capacity {hash : κ → Nat} {eq : κ → κ → Bool} (hc : Consistent hash eq) {step : Nat} (hs : 0 < step)
    (ops : List (Op κ δ φ)) :
    ∃ (h : AxlHash κ δ φ) (p m : Nat), (newFull hash eq step).run ops = some h ∧ Peak eq ops.reverse p ∧
      (∃ es, Lists eq ops.reverse es ∧ itemCount (some h) = es.length) ∧
      capacity (some h) = step * m ∧ (m = 0 ↔ ¬ Used ops.reverse) ∧ p ≤ step * m ∧
      ∀ m', 0 < m' → p ≤ step * m' → m ≤ m' := by
  obtain ⟨h, p, h1, hz⟩ := sized_run hc hs ops (sized_new (δ := δ) (φ := φ) hc hs)
  rw [List.append_nil] at hz
  have hi : ∃ es, Lists eq ops.reverse es ∧ itemCount (some h) = es.length :=
    ⟨_, hist_lists hz.hist, by simp only [itemCount]; rw [hz.hist.inv.items, List.length_map]⟩
  have hn := hz.none
  have hroom := hz.room
  rcases hz.size with h0 | ⟨m, hm, hm'⟩
  · refine ⟨h, p, 0, h1, hz.peak, hi, by simp [capacity, h0], by simpa [h0] using hn, by omega, fun m' _ _ => Nat.zero_le _⟩
  · have hne : h.hashSize ≠ 0 := by rw [hm]; exact Nat.mul_ne_zero (by omega) (by omega)
    refine ⟨h, p, m + 1, h1, hz.peak, hi, by simp [capacity, hm], ?_, by omega, fun m' h0 hle => ?_⟩
    · constructor
      · intro e; omega
      · intro e; exact absurd (hn.2 e) hne
    · rcases hm' with rfl | hm'
      · exact h0
      · have : step * m < step * m' := by omega
        have := Nat.lt_of_mul_lt_mul_left this
        omega

/-- NULL has no items and no capacity. -/
theorem C09_capacity_null : itemCount (none : Option (AxlHash κ δ φ)) = -1 ∧ capacity (none : Option (AxlHash κ δ φ)) = -1 := ⟨rfl, rfl⟩

/-- Insertions of the numbers below `n`. -/
def insertions (n : Nat) : List (Op Int Nat Nat) := (List.range n).map fun (i : Nat) => .insert ⟨(i : Int), none, some i, none⟩

example : ((newFull hashInt hashEqualInt 3 : AxlHash Int Nat Nat).run (insertions 3)).map (capacity ∘ some) = some 3 ∧
    ((newFull hashInt hashEqualInt 3 : AxlHash Int Nat Nat).run (insertions 4)).map (capacity ∘ some) = some 6 ∧
    ((newFull hashInt hashEqualInt 3 : AxlHash Int Nat Nat).run (insertions 7 ++ [.remove 0, .delete 1, .remove 5])).map (capacity ∘ some) = some 9 := by
  refine ⟨?_, ?_, ?_⟩ <;> decide +kernel

end AxlHash
end Axl
