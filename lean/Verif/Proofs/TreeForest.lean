/-
Facts about the specification of trees alone: what is below a node, and why the histories that fit
keep the tree a tree.
-/
import Verif.Spec.Tree

namespace Axl.Spec.Tree
namespace Forest

theorem mem_nodesOf {l : List Child} {n : Nat} : n ∈ nodesOf l ↔ Child.node n ∈ l := by
  induction l with
  | nil => simp [nodesOf]
  | cons c t ih => cases c <;> simp [nodesOf, ih]

/-- `c` is a child of `n`. -/
def Edge (f : Forest) (n c : Nat) : Prop := f.live n = true ∧ Child.node c ∈ f.kids n

/-- `m` is `n` or is below it. -/
inductive Reach (f : Forest) (n : Nat) : Nat → Prop where
  | refl : Reach f n n
  | tail {m c : Nat} : Reach f n m → Edge f m c → Reach f n c

theorem Reach.trans {f : Forest} {a b c : Nat} (h1 : Reach f a b) (h2 : Reach f b c) : Reach f a c := by
  induction h2 with
  | refl => exact h1
  | tail _ e ih => exact ih.tail e

theorem Reach.head {f : Forest} {a b c : Nat} (h1 : Edge f a b) (h2 : Reach f b c) : Reach f a c :=
  Reach.trans (Reach.tail .refl h1) h2

theorem Reach.cases_head {f : Forest} {a c : Nat} (h : Reach f a c) :
    a = c ∨ ∃ b, Edge f a b ∧ Reach f b c := by
  induction h with
  | refl => exact Or.inl rfl
  | tail hr e ih =>
    rcases ih with rfl | ⟨b, e1, r1⟩
    · exact Or.inr ⟨_, e, .refl⟩
    · exact Or.inr ⟨b, e1, r1.tail e⟩

/-- The tree is a tree, apart from a child being in one place only. -/
structure Tame (f : Forest) : Prop where
  bound : ∀ n, f.live n = true → n < f.next
  closed : ∀ n c, Edge f n c → f.live c = true
  rank : ∃ rank : Nat → Nat, ∀ n c, Edge f n c → rank c < rank n

theorem Tame.reach_live {f : Forest} (T : Tame f) {n m : Nat} (hn : f.live n = true)
    (h : Reach f n m) : f.live m = true := by
  induction h with
  | refl => exact hn
  | tail _ e _ => exact T.closed _ _ e

theorem reach_rank {f : Forest} {rank : Nat → Nat} (hr : ∀ n c, Edge f n c → rank c < rank n)
    {n m : Nat} (h : Reach f n m) : rank m ≤ rank n := by
  induction h with
  | refl => exact Nat.le_refl _
  | tail _ e ih => exact Nat.le_of_lt (Nat.lt_of_lt_of_le (hr _ _ e) ih)

/-- There is no way back up. -/
theorem Tame.no_cycle {f : Forest} (T : Tame f) {n c : Nat} (e : Edge f n c) : ¬ Reach f c n := by
  obtain ⟨rank, hr⟩ := T.rank
  intro h
  have := reach_rank hr h
  have := hr _ _ e
  omega

/-- Different numbers below `k`: there are at most `k` of them. -/
theorem nodup_bounded_length {k : Nat} : ∀ {l : List Nat}, l.Nodup → (∀ x ∈ l, x < k) → l.length ≤ k := by
  induction k with
  | zero =>
    intro l _ hb
    cases l with
    | nil => simp
    | cons x t => exact absurd (hb x (by simp)) (by omega)
  | succ k ih =>
    intro l hnd hb
    have h1 : (l.erase k).length ≤ k := by
      apply ih (hnd.erase k)
      intro x hx
      rw [hnd.mem_erase_iff] at hx
      have := hb x hx.2
      have := hx.1
      omega
    by_cases hk : k ∈ l
    · rw [List.length_erase_of_mem hk] at h1
      omega
    · rw [List.erase_of_not_mem hk] at h1
      omega

theorem subtree_reach {f : Forest} (T : Tame f) {d n m : Nat} (hn : f.live n = true)
    (h : m ∈ f.subtree d n) : Reach f n m := by
  induction d generalizing n with
  | zero => simp [subtree] at h
  | succ d ih =>
    simp only [subtree, List.mem_cons, List.mem_flatMap] at h
    rcases h with rfl | ⟨c, hc, hm⟩
    · exact .refl
    · have e : Edge f n c := ⟨hn, mem_nodesOf.mp hc⟩
      exact Reach.head e (ih (T.closed _ _ e) hm)

theorem reach_subtree_aux {f : Forest} (T : Tame f) {rank : Nat → Nat}
    (hr : ∀ n c, Edge f n c → rank c < rank n) : ∀ (k n m : Nat) (vs : List Nat),
    rank n ≤ k → f.live n = true → vs.Nodup → (∀ v ∈ vs, f.live v = true ∧ rank n < rank v) → Reach f n m →
    m ∈ f.subtree (f.next - vs.length) n := by
  intro k
  induction k with
  | zero =>
    intro n m vs hk hn hnd hvs h
    have hlen : vs.length + 1 ≤ f.next := by
      have : (n :: vs).length ≤ f.next := nodup_bounded_length
        (by
          rw [List.nodup_cons]
          exact ⟨fun hm => Nat.lt_irrefl _ (hvs n hm).2, hnd⟩)
        (by
          intro x hx
          rcases List.mem_cons.mp hx with rfl | hx
          · exact T.bound _ hn
          · exact T.bound _ (hvs x hx).1)
      simpa using this
    have e : f.next - vs.length = (f.next - (n :: vs).length) + 1 := by simp; omega
    rw [e]
    rcases h.cases_head with rfl | ⟨b, e1, r1⟩
    · simp [subtree]
    · have := hr _ _ e1
      omega
  | succ k ih =>
    intro n m vs hk hn hnd hvs h
    have hnd' : (n :: vs).Nodup := by
      rw [List.nodup_cons]
      exact ⟨fun hm => Nat.lt_irrefl _ (hvs n hm).2, hnd⟩
    have hlen : vs.length + 1 ≤ f.next := by
      have : (n :: vs).length ≤ f.next := nodup_bounded_length hnd'
        (by
          intro x hx
          rcases List.mem_cons.mp hx with rfl | hx
          · exact T.bound _ hn
          · exact T.bound _ (hvs x hx).1)
      simpa using this
    have e : f.next - vs.length = (f.next - (n :: vs).length) + 1 := by simp; omega
    rw [e]
    rcases h.cases_head with rfl | ⟨b, e1, r1⟩
    · simp [subtree]
    · simp only [subtree, List.mem_cons, List.mem_flatMap]
      have hb := hr _ _ e1
      refine Or.inr ⟨b, mem_nodesOf.mpr e1.2, ih b m (n :: vs) (by omega) (T.closed _ _ e1) hnd' ?_ r1⟩
      intro v hv
      rcases List.mem_cons.mp hv with rfl | hv
      · exact ⟨hn, hb⟩
      · exact ⟨(hvs v hv).1, Nat.lt_trans hb (hvs v hv).2⟩

/-- What `below` computes is what it says. -/
theorem below_iff {f : Forest} (T : Tame f) {n m : Nat} (hn : f.live n = true) :
    f.below n m = true ↔ Reach f n m := by
  unfold below
  rw [List.contains_iff_mem]
  constructor
  · exact subtree_reach T hn
  · obtain ⟨rank, hr⟩ := T.rank
    intro h
    have := reach_subtree_aux T hr (rank n) n m [] (Nat.le_refl _) hn (by simp) (by simp) h
    simpa using this

/-- Enough depth for a recursion that starts at `n`. -/
def Depth (f : Forest) : Nat → Nat → Prop
  | 0, _ => False
  | d + 1, n => ∀ c, Edge f n c → Depth f d c

theorem depth_aux {f : Forest} (T : Tame f) {rank : Nat → Nat}
    (hr : ∀ n c, Edge f n c → rank c < rank n) : ∀ (k n : Nat) (vs : List Nat),
    rank n ≤ k → f.live n = true → vs.Nodup → (∀ v ∈ vs, f.live v = true ∧ rank n < rank v) →
    Depth f (f.next - vs.length) n := by
  intro k
  induction k with
  | zero =>
    intro n vs hk hn hnd hvs
    have hnd' : (n :: vs).Nodup := by
      rw [List.nodup_cons]
      exact ⟨fun hm => Nat.lt_irrefl _ (hvs n hm).2, hnd⟩
    have hlen : vs.length + 1 ≤ f.next := by
      have : (n :: vs).length ≤ f.next := nodup_bounded_length hnd'
        (by
          intro x hx
          rcases List.mem_cons.mp hx with rfl | hx
          · exact T.bound _ hn
          · exact T.bound _ (hvs x hx).1)
      simpa using this
    have e : f.next - vs.length = (f.next - (n :: vs).length) + 1 := by simp; omega
    rw [e]
    intro c ec
    have := hr _ _ ec
    omega
  | succ k ih =>
    intro n vs hk hn hnd hvs
    have hnd' : (n :: vs).Nodup := by
      rw [List.nodup_cons]
      exact ⟨fun hm => Nat.lt_irrefl _ (hvs n hm).2, hnd⟩
    have hlen : vs.length + 1 ≤ f.next := by
      have : (n :: vs).length ≤ f.next := nodup_bounded_length hnd'
        (by
          intro x hx
          rcases List.mem_cons.mp hx with rfl | hx
          · exact T.bound _ hn
          · exact T.bound _ (hvs x hx).1)
      simpa using this
    have e : f.next - vs.length = (f.next - (n :: vs).length) + 1 := by simp; omega
    rw [e]
    intro c ec
    have hb := hr _ _ ec
    refine ih c (n :: vs) (by omega) (T.closed _ _ ec) hnd' ?_
    intro v hv
    rcases List.mem_cons.mp hv with rfl | hv
    · exact ⟨hn, hb⟩
    · exact ⟨(hvs v hv).1, Nat.lt_trans hb (hvs v hv).2⟩

theorem depth_next {f : Forest} (T : Tame f) {n : Nat} (hn : f.live n = true) : Depth f f.next n := by
  obtain ⟨rank, hr⟩ := T.rank
  simpa using depth_aux T hr (rank n) n [] (Nat.le_refl _) hn (by simp) (by simp)

theorem attached_iff {f : Forest} (T : Tame f) {n : Nat} :
    f.attached n = true ↔ ∃ p, Edge f p n := by
  unfold attached
  simp only [List.any_eq_true, List.mem_range, Bool.and_eq_true, List.contains_iff_mem, mem_nodesOf]
  constructor
  · rintro ⟨p, _, h⟩; exact ⟨p, h⟩
  · rintro ⟨p, h⟩; exact ⟨p, T.bound _ h.1, h⟩

/-- A child is in one node only. -/
def Single (f : Forest) : Prop := ∀ n m c, Edge f n c → Edge f m c → n = m

theorem reach_comparable {f : Forest} (hs : Single f) {a b m : Nat} (ha : Reach f a m)
    (hb : Reach f b m) : Reach f a b ∨ Reach f b a := by
  induction ha with
  | refl => exact Or.inr hb
  | tail r e ih =>
    cases hb with
    | refl => exact Or.inl (r.tail e)
    | tail r' e' => cases hs _ _ _ e e'; exact ih r'

/-- Two different children of a node have nothing below them in common. -/
theorem siblings_apart {f : Forest} (T : Tame f) (hs : Single f) {n a b m : Nat} (ea : Edge f n a)
    (eb : Edge f n b) (hab : a ≠ b) (ha : Reach f a m) : ¬ Reach f b m := by
  intro hb
  rcases reach_comparable hs ha hb with h | h
  · cases h with
    | refl => exact hab rfl
    | tail r e =>
      cases hs _ _ _ e eb
      exact T.no_cycle ea r
  · cases h with
    | refl => exact hab rfl
    | tail r e =>
      cases hs _ _ _ e ea
      exact T.no_cycle eb r

/-! ### Keeping the tree a tree -/

/-- Fewer edges. -/
theorem tame_fewer {f f' : Forest} (T : Tame f) (hn : f'.next = f.next)
    (hl : ∀ n, f'.live n = true → f.live n = true)
    (he : ∀ n c, Edge f' n c → Edge f n c)
    (hc : ∀ n c, Edge f' n c → f'.live c = true) : Tame f' := by
  obtain ⟨rank, hr⟩ := T.rank
  exact ⟨fun n h => by rw [hn]; exact T.bound n (hl n h), hc, rank, fun n c e => hr n c (he n c e)⟩

/-- New edges lead from outside the part below `x` to a node in it. -/
theorem tame_more {f f' : Forest} (T : Tame f) (hn : f'.next = f.next)
    (hl : ∀ n, f'.live n = f.live n) (x : Nat) (hx : f.live x = true)
    (he : ∀ n c, Edge f' n c → Edge f n c ∨ (¬ Reach f x n ∧ Reach f x c)) : Tame f' := by
  obtain ⟨rank, hr⟩ := T.rank
  refine ⟨fun n h => by rw [hn]; exact T.bound n ((hl n) ▸ h), ?_, ?_⟩
  · intro n c e
    rw [hl]
    rcases he n c e with h | ⟨_, h⟩
    · exact T.closed _ _ h
    · exact T.reach_live hx h
  · classical
    refine ⟨fun m => if Reach f x m then rank m else rank m + rank x + 1, ?_⟩
    intro n c e
    rcases he n c e with h | ⟨h1, h2⟩
    · have := hr _ _ h
      by_cases hxn : Reach f x n
      · simp only [hxn, hxn.tail h, if_true]; exact this
      · by_cases hxc : Reach f x c
        · simp only [hxn, hxc, if_true, if_false]; omega
        · simp only [hxn, hxc, if_false]; omega
    · have := reach_rank hr h2
      simp only [h1, h2, if_true, if_false]
      omega

theorem edge_setKids {f : Forest} {p : Nat} {l : List Child} {n c : Nat} :
    Edge (f.setKids p l) n c ↔ f.live n = true ∧ (if n = p then Child.node c ∈ l else Child.node c ∈ f.kids n) := by
  unfold Edge setKids
  dsimp only
  split <;> simp_all

/-- Giving a node a list of children that adds at most one, free to go there. -/
theorem tame_setKids {f : Forest} (T : Tame f) {p : Nat} {l : List Child} {v : Child}
    (hv : f.mayGo p v = true) (hl : ∀ c, Child.node c ∈ l → Child.node c ∈ f.kids p ∨ Child.node c = v) :
    Tame (f.setKids p l) := by
  cases v with
  | text k s =>
    apply tame_fewer (f' := f.setKids p l) T rfl (fun _ h => h)
    · intro n c e
      rw [edge_setKids] at e
      refine ⟨e.1, ?_⟩
      have := e.2
      split at this
      · rename_i h; subst h
        rcases hl c this with h | h
        · exact h
        · cases h
      · exact this
    · intro n c e
      rw [edge_setKids] at e
      apply T.closed n c
      refine ⟨e.1, ?_⟩
      have := e.2
      split at this
      · rename_i h; subst h
        rcases hl c this with h | h
        · exact h
        · cases h
      · exact this
  | node x =>
    simp only [mayGo, Bool.and_eq_true, Bool.not_eq_true'] at hv
    obtain ⟨⟨hx, hat⟩, hb⟩ := hv
    apply tame_more (f' := f.setKids p l) T rfl (fun _ => rfl) x hx
    intro n c e
    rw [edge_setKids] at e
    by_cases hnp : n = p
    · subst hnp
      simp only [if_true] at e
      rcases hl c e.2 with h | h
      · exact Or.inl ⟨e.1, h⟩
      · cases h
        refine Or.inr ⟨?_, .refl⟩
        intro hr
        rw [(below_iff T hx).mpr hr] at hb
        cases hb
    · simp only [hnp, if_false] at e
      exact Or.inl e

theorem live_kill {f : Forest} (T : Tame f) {n m : Nat} (hn : f.live n = true) :
    (f.kill n).live m = true ↔ f.live m = true ∧ ¬ Reach f n m := by
  simp only [kill, Bool.and_eq_true, Bool.not_eq_true', ← Bool.not_eq_true, below_iff T hn]

theorem tame_kill {f : Forest} (T : Tame f) (hs : Single f) {n : Nat} (hn : f.live n = true)
    (hfree : ∀ p, ¬ Edge f p n) : Tame (f.kill n) := by
  have he : ∀ a c, Edge (f.kill n) a c → Edge f a c ∧ ¬ Reach f n a := by
    intro a c e
    have := (live_kill T hn).mp e.1
    exact ⟨⟨this.1, e.2⟩, this.2⟩
  apply tame_fewer (f' := f.kill n) T rfl
  · intro m hm; exact ((live_kill T hn).mp hm).1
  · intro a c e; exact (he a c e).1
  · intro a c e
    obtain ⟨e1, e2⟩ := he a c e
    rw [live_kill T hn]
    refine ⟨T.closed _ _ e1, ?_⟩
    intro hr
    cases hr with
    | refl => exact hfree a e1
    | tail r e3 => cases hs _ _ _ e1 e3; exact e2 r

end Forest
end Axl.Spec.Tree
