/-
Representation invariant of axlList and the effect of each operation on the sequence stored.
-/
import Verif.Model.List
import Verif.Proofs.Dll
import Verif.Spec.List

namespace Axl
namespace AxlList
variable {α : Type}

/-- The list `l` stores the nodes `ns` (addresses and elements) in this order. -/
structure Rep (l : AxlList α) (ns : List (Nat × α)) : Prop where
  seg : Seg l.mem none ns none
  first : l.first = headAddr ns none
  last : l.last = lastAddr ns none
  len : l.length = ns.length
  nodup : (ns.map Prod.fst).Nodup
  bound : ∀ a ∈ ns.map Prod.fst, a < l.brk
  poolNodup : l.pool.Nodup
  poolBound : ∀ a ∈ l.pool, a < l.brk
  poolDisj : ∀ a ∈ l.pool, a ∉ ns.map Prod.fst
  poolAlloc : ∀ a ∈ l.pool, ∃ c, l.mem a = some c
  cap : l.pool.length + ns.length ≤ l.brk
  alloc : l.brk ≤ l.allocated

/-- `new` is a node just taken from the pool, holding `x`, not linked yet. -/
structure Out (l : AxlList α) (ns : List (Nat × α)) (new : Nat) (x : α) : Prop where
  cell : l.mem new = some ⟨none, none, x⟩
  notMem : new ∉ ns.map Prod.fst
  notPool : new ∉ l.pool
  bound : new < l.brk
  cap : l.pool.length + ns.length + 1 ≤ l.brk

/-- Fields no operation touches, except as stated. -/
def Same (l l' : AxlList α) : Prop :=
  l'.areEqual = l.areEqual ∧ l'.hasDestroy = l.hasDestroy ∧ l'.destroyed = l.destroyed

theorem Same.refl (l : AxlList α) : Same l l := ⟨rfl, rfl, rfl⟩

theorem Same.trans {a b c : AxlList α} (h : Same a b) (h' : Same b c) : Same a c :=
  ⟨h'.1.trans h.1, h'.2.1.trans h.2.1, h'.2.2.trans h.2.2⟩

theorem rep_new (eq : α → α → Int) (d : Bool) : Rep (new eq d) [] := by
  constructor <;> simp [new, Seg]

theorem getNode_spec {l : AxlList α} {ns : List (Nat × α)} (h : Rep l ns) (x : α) :
    Rep (l.getNode x).2 ns ∧ Out (l.getNode x).2 ns (l.getNode x).1 x ∧ Same l (l.getNode x).2 := by
  unfold getNode
  cases hp : l.pool with
  | cons a rest =>
    have hnd := h.poolNodup
    rw [hp] at hnd
    have hna : a ∉ ns.map Prod.fst := h.poolDisj a (by simp [hp])
    have hcap := h.cap
    rw [hp] at hcap
    simp only [List.length_cons] at hcap
    refine ⟨⟨seg_put_of_notMem hna h.seg, h.first, h.last, h.len, h.nodup, h.bound, ?_, ?_, ?_, ?_, ?_, h.alloc⟩,
      ⟨Mem.put_self _ _ _, hna, ?_, ?_, ?_⟩, rfl, rfl, rfl⟩
    · exact (List.nodup_cons.1 hnd).2
    · intro b hb; exact h.poolBound b (by simp [hp, hb])
    · intro b hb; exact h.poolDisj b (by simp [hp, hb])
    · intro b hb
      by_cases e : b = a
      · exact ⟨_, by rw [e]; exact Mem.put_self _ _ _⟩
      · obtain ⟨c, hc⟩ := h.poolAlloc b (by simp [hp, hb])
        exact ⟨c, by simp [Mem.put, e, hc]⟩
    · simp only; omega
    · exact (List.nodup_cons.1 hnd).1
    · exact h.poolBound a (by simp [hp])
    · simp only; omega
  | nil =>
    have hna : l.brk ∉ ns.map Prod.fst := fun hm => Nat.lt_irrefl _ (h.bound _ hm)
    have hcap := h.cap
    rw [hp] at hcap
    simp only [List.length_nil] at hcap
    refine ⟨⟨seg_put_of_notMem hna h.seg, h.first, h.last, h.len, h.nodup, ?_, ?_, ?_, ?_, ?_, ?_, ?_⟩,
      ⟨Mem.put_self _ _ _, hna, ?_, ?_, ?_⟩, rfl, rfl, rfl⟩ <;> simp_all
    · intro a y hy; exact Nat.lt_succ_of_lt (h.bound a (by simp; exact ⟨y, hy⟩))
    · omega
    · exact h.alloc

/-- Linking the node `new` between `l` and `r`: the memory that results. -/
theorem seg_insert {m : Mem α} {l r : List (Nat × α)} {new : Nat} {x : α}
    (hs : Seg m none (l ++ r) none) (hnd : ((l ++ r).map Prod.fst).Nodup)
    (hnew : new ∉ (l ++ r).map Prod.fst) {m' : Mem α}
    (hn : m' new = some ⟨lastAddr l none, headAddr r none, x⟩)
    (hl : ∀ t a y, l = t ++ [(a, y)] → m' a = some ⟨lastAddr t none, some new, y⟩)
    (hr : ∀ a y t, r = (a, y) :: t → m' a = some ⟨some new, headAddr t none, y⟩)
    (ho : ∀ b, b ≠ new → (∀ t a y, l = t ++ [(a, y)] → b ≠ a) → (∀ a y t, r = (a, y) :: t → b ≠ a) →
      m' b = m b) :
    Seg m' none (l ++ (new, x) :: r) none := by
  rw [seg_append] at hs ⊢
  obtain ⟨h1, h2⟩ := hs
  have hdisj : ∀ a, a ∈ l.map Prod.fst → a ∈ r.map Prod.fst → False := by
    intro a ha hb
    rw [List.map_append, List.nodup_append] at hnd
    exact hnd.2.2 a ha a hb rfl
  rw [List.map_append, List.nodup_append] at hnd
  simp only [List.map_append, List.mem_append, not_or] at hnew
  refine ⟨?_, hn, ?_⟩
  · rcases eq_nil_or_concat' l with rfl | ⟨t, a, y, rfl⟩
    · trivial
    · rw [seg_append] at h1 ⊢
      refine ⟨seg_frame ?_ h1.1, hl t a y rfl, trivial⟩
      intro b hb
      have hbl : b ∈ (t ++ [(a, y)]).map Prod.fst := by simp at hb ⊢; exact Or.inl hb
      apply ho
      · intro e; exact hnew.1 (e ▸ hbl)
      · intro t' a' y' e
        have := List.append_inj' e rfl
        simp at this
        obtain ⟨_, rfl, _⟩ := this
        have := hnd.1
        rw [List.map_append, List.nodup_append] at this
        exact this.2.2 b hb a (by simp)
      · intro a' y' t' e hba
        exact hdisj b hbl (by simp [e, hba])
  · cases r with
    | nil => trivial
    | cons c t =>
      obtain ⟨a, y⟩ := c
      refine ⟨hr a y t rfl, seg_frame ?_ h2.2⟩
      intro b hb
      have hbr : b ∈ ((a, y) :: t).map Prod.fst := by simp at hb ⊢; exact Or.inr hb
      apply ho
      · intro e; exact hnew.2 (e ▸ hbr)
      · intro t' a' y' e hba
        exact hdisj b (by simp [e, hba]) hbr
      · intro a' y' t' e
        simp at e
        obtain ⟨⟨rfl, _⟩, _⟩ := e
        intro hba
        have := hnd.2.1
        simp only [List.map_cons, List.nodup_cons] at this
        exact this.1 (hba ▸ hb)

/-- Bookkeeping part of inserting a node: from a segment to `Rep`. -/
theorem rep_insert {l : AxlList α} {L R : List (Nat × α)} {new : Nat} {x : α}
    (h : Rep l (L ++ R)) (ho : Out l (L ++ R) new x) {m' : Mem α} {f t : Option Nat}
    (hs : Seg m' none (L ++ (new, x) :: R) none)
    (hf : f = headAddr (L ++ (new, x) :: R) none) (ht : t = lastAddr (L ++ (new, x) :: R) none)
    (hp : ∀ a ∈ l.pool, ∃ c, m' a = some c) :
    Rep { l with mem := m', first := f, last := t, length := l.length + 1 }
      (L ++ (new, x) :: R) := by
  refine ⟨hs, hf, ht, ?_, ?_, ?_, h.poolNodup, h.poolBound, ?_, hp, ?_, h.alloc⟩
  · have := h.len
    simp only [List.length_append, List.length_cons] at this ⊢
    omega
  · have h1 := h.nodup
    have h2 := ho.notMem
    simp only [List.map_append, List.map_cons, List.nodup_append, List.nodup_cons,
      List.mem_append, not_or, List.mem_cons] at h1 h2 ⊢
    refine ⟨h1.1, ⟨h2.2, h1.2.1⟩, ?_⟩
    intro a ha b hb e
    rcases hb with rfl | hb
    · exact h2.1 (e ▸ ha)
    · exact h1.2.2 a ha b hb e
  · intro a ha
    simp only [List.map_append, List.map_cons, List.mem_append, List.mem_cons] at ha
    rcases ha with ha | rfl | ha
    · exact h.bound a (by simp only [List.map_append, List.mem_append]; exact Or.inl ha)
    · exact ho.bound
    · exact h.bound a (by simp only [List.map_append, List.mem_append]; exact Or.inr ha)
  · intro a ha hm
    simp only [List.map_append, List.map_cons, List.mem_append, List.mem_cons] at hm
    have := h.poolDisj a ha
    simp only [List.map_append, List.mem_append, not_or] at this
    rcases hm with hm | rfl | hm
    · exact this.1 hm
    · exact ho.notPool ha
    · exact this.2 hm
  · have := ho.cap
    simp only [List.length_append, List.length_cons] at this ⊢
    omega

theorem put_alloc {m : Mem α} {b a : Nat} {c : Cell α} (h : ∃ c, m a = some c) :
    ∃ c', m.put b c a = some c' := by
  obtain ⟨d, hd⟩ := h
  by_cases e : a = b
  · exact ⟨c, by simp [Mem.put, e]⟩
  · exact ⟨d, by simp [Mem.put, e, hd]⟩

theorem insertBefore_spec {l : AxlList α} {L R : List (Nat × α)} {new node : Nat} {x y : α}
    (h : Rep l (L ++ (node, y) :: R)) (ho : Out l (L ++ (node, y) :: R) new x) :
    ∃ l', l.insertBefore new node = some l' ∧ Rep l' (L ++ (new, x) :: (node, y) :: R) ∧
      Same l l' := by
  have hmid := seg_mid h.seg
  have hnn : node ≠ new := by
    intro e; apply ho.notMem; simp [e]
  have hnode_l : ∀ t a z, L = t ++ [(a, z)] → node ≠ a := by
    intro t a z e hna
    have := h.nodup
    rw [e] at this
    simp [List.nodup_append, hna] at this
  rcases eq_nil_or_concat' L with rfl | ⟨t, a, z, rfl⟩
  · refine ⟨{ l with mem := (l.mem.put new ⟨none, some node, x⟩).put node ⟨some new, headAddr R none, y⟩, first := some new, length := l.length + 1 }, ?_, ?_, rfl, rfl, rfl⟩
    · simp only [insertBefore, Mem.setNext, Mem.setPrev, ho.cell]
      simp only [List.nil_append, lastAddr_nil] at hmid
      simp [Mem.put, hmid, hnn]
    · have hl := h.last
      have := rep_insert (L := []) (R := (node, y) :: R) h ho
        (m' := (l.mem.put new ⟨none, some node, x⟩).put node ⟨some new, headAddr R none, y⟩)
        (f := some new) (t := l.last) ?_ rfl ?_ ?_
      · exact this
      · apply seg_insert h.seg h.nodup ho.notMem
        · simp [Mem.put, Ne.symm hnn]
        · intro t a y e; simp at e
        · intro a y' t e
          simp at e
          obtain ⟨⟨rfl, rfl⟩, rfl⟩ := e
          simp [Mem.put]
        · intro b h1 _ h3
          have := h3 node y R rfl
          simp [Mem.put, h1, this]
      · rw [hl]; simp
      · intro a ha; exact put_alloc (put_alloc (h.poolAlloc a ha))
  · have hna : node ≠ a := hnode_l t a z rfl
    have hnewa : a ≠ new := by intro e; apply ho.notMem; simp [e]
    have ha : l.mem a = some ⟨lastAddr t none, some node, z⟩ := by
      have := h.seg
      rw [List.append_assoc] at this
      simpa using seg_mid this
    rw [lastAddr_concat] at hmid
    refine ⟨{ l with mem := ((l.mem.put new ⟨some a, some node, x⟩).put node ⟨some new, headAddr R none, y⟩).put a ⟨lastAddr t none, some new, z⟩, length := l.length + 1 }, ?_, ?_, rfl, rfl, rfl⟩
    · simp only [insertBefore, Mem.setNext, Mem.setPrev, ho.cell]
      simp [Mem.put, hmid, hnn, ha, Ne.symm hna, hnewa]
    · have hl := h.last
      have hf := h.first
      have := rep_insert (L := t ++ [(a, z)]) (R := (node, y) :: R) h ho
        (m' := ((l.mem.put new ⟨some a, some node, x⟩).put node ⟨some new, headAddr R none, y⟩).put a ⟨lastAddr t none, some new, z⟩)
        (f := l.first) (t := l.last) ?_ ?_ ?_ ?_
      · exact this
      · apply seg_insert h.seg h.nodup ho.notMem
        · simp [Mem.put, Ne.symm hnn, Ne.symm hnewa, lastAddr_concat]
        · intro t' a' y' e
          have := List.append_inj' e rfl
          simp at this
          obtain ⟨rfl, rfl, rfl⟩ := this
          simp [Mem.put]
        · intro a' y' t' e
          simp at e
          obtain ⟨⟨rfl, rfl⟩, rfl⟩ := e
          simp [Mem.put, hna]
        · intro b h1 h2 h3
          have h3' := h3 node y R rfl
          have h2' := h2 t a z rfl
          simp [Mem.put, h1, h3', h2']
      · rw [hf]; simp [headAddr_append]
      · rw [hl]; simp [lastAddr_append]
      · intro b hb; exact put_alloc (put_alloc (put_alloc (h.poolAlloc b hb)))

theorem insertAfter_spec {l : AxlList α} {L R : List (Nat × α)} {new node : Nat} {x y : α}
    (h : Rep l (L ++ (node, y) :: R)) (ho : Out l (L ++ (node, y) :: R) new x) :
    ∃ l', l.insertAfter new node = some l' ∧ Rep l' (L ++ (node, y) :: (new, x) :: R) ∧
      Same l l' := by
  have hmid := seg_mid h.seg
  have hnn : node ≠ new := by
    intro e; apply ho.notMem; simp [e]
  have hassoc : L ++ (node, y) :: R = (L ++ [(node, y)]) ++ R := by simp
  have h' := h
  have ho' := ho
  rw [hassoc] at h' ho'
  have hconv : L ++ (node, y) :: (new, x) :: R = (L ++ [(node, y)]) ++ (new, x) :: R := by simp
  cases R with
  | nil =>
    refine ⟨{ l with mem := (l.mem.put new ⟨some node, none, x⟩).put node ⟨lastAddr L none, some new, y⟩, last := some new, length := l.length + 1 }, ?_, ?_, rfl, rfl, rfl⟩
    · simp only [insertAfter, Mem.setNext, Mem.setPrev, ho.cell]
      simp only [headAddr_nil] at hmid
      simp [Mem.put, hmid, hnn]
    · rw [hconv]
      have := rep_insert (L := L ++ [(node, y)]) (R := []) h' ho'
        (m' := (l.mem.put new ⟨some node, none, x⟩).put node ⟨lastAddr L none, some new, y⟩)
        (f := l.first) (t := some new) ?_ ?_ ?_ ?_
      · exact this
      · apply seg_insert h'.seg h'.nodup ho'.notMem
        · simp [Mem.put, Ne.symm hnn, lastAddr_concat]
        · intro t a y' e
          have := List.append_inj' e rfl
          simp at this
          obtain ⟨rfl, rfl, rfl⟩ := this
          simp [Mem.put]
        · intro a y' t e; simp at e
        · intro b h1 h2 h3
          have h2' := h2 L node y rfl
          simp [Mem.put, h1, h2']
      · rw [h.first]; simp [headAddr_append]
      · simp [lastAddr_append]
      · intro a ha; exact put_alloc (put_alloc (h.poolAlloc a ha))
  | cons c R =>
    obtain ⟨b, z⟩ := c
    have hnb : node ≠ b := by
      intro e
      have := h.nodup
      simp [List.nodup_append, e] at this
    have hnewb : b ≠ new := by intro e; apply ho.notMem; simp [e]
    have hb : l.mem b = some ⟨some node, headAddr R none, z⟩ := by
      have := seg_mid h'.seg
      simpa [lastAddr_concat] using this
    refine ⟨{ l with mem := ((l.mem.put new ⟨some node, some b, x⟩).put node ⟨lastAddr L none, some new, y⟩).put b ⟨some new, headAddr R none, z⟩, length := l.length + 1 }, ?_, ?_, rfl, rfl, rfl⟩
    · simp only [insertAfter, Mem.setNext, Mem.setPrev, ho.cell]
      simp [Mem.put, hmid, hnn, hb, Ne.symm hnb, hnewb]
    · rw [hconv]
      have := rep_insert (L := L ++ [(node, y)]) (R := (b, z) :: R) h' ho'
        (m' := ((l.mem.put new ⟨some node, some b, x⟩).put node ⟨lastAddr L none, some new, y⟩).put b ⟨some new, headAddr R none, z⟩)
        (f := l.first) (t := l.last) ?_ ?_ ?_ ?_
      · exact this
      · apply seg_insert h'.seg h'.nodup ho'.notMem
        · simp [Mem.put, Ne.symm hnn, Ne.symm hnewb, lastAddr_concat]
        · intro t a y' e
          have := List.append_inj' e rfl
          simp at this
          obtain ⟨rfl, rfl, rfl⟩ := this
          simp [Mem.put, hnb]
        · intro a y' t e
          simp at e
          obtain ⟨⟨rfl, rfl⟩, rfl⟩ := e
          simp [Mem.put]
        · intro b' h1 h2 h3
          have h2' := h2 L node y rfl
          have h3' := h3 b z R rfl
          simp [Mem.put, h1, h2', h3']
      · rw [h.first]; simp [headAddr_append]
      · rw [h.last]; simp [lastAddr_append]
      · intro b' hb'; exact put_alloc (put_alloc (put_alloc (h.poolAlloc b' hb')))

theorem prepend_spec {l : AxlList α} {ns : List (Nat × α)} (h : Rep l ns) (x : α) :
    ∃ l' a, l.prepend x = some l' ∧ Rep l' ((a, x) :: ns) ∧ Same l l' := by
  obtain ⟨h1, ho, hsame⟩ := getNode_spec h x
  unfold prepend
  generalize l.getNode x = g at h1 ho hsame
  obtain ⟨new, l1⟩ := g
  dsimp only at h1 ho hsame ⊢
  cases ns with
  | nil =>
    have hf := h1.first
    have hl := h1.last
    simp only [headAddr_nil, lastAddr_nil] at hf hl
    refine ⟨{ l1 with first := some new, last := some new, length := l1.length + 1 }, new, by simp [hf], ?_, hsame⟩
    exact rep_insert (L := []) (R := []) h1 ho (m' := l1.mem) ⟨ho.cell, trivial⟩ rfl rfl h1.poolAlloc
  | cons c t =>
    obtain ⟨b, z⟩ := c
    have hf := h1.first
    simp only [headAddr_cons] at hf
    have hmid := h1.seg.1
    have hnb : b ≠ new := by intro e; apply ho.notMem; simp [e]
    refine ⟨{ l1 with mem := (l1.mem.put b ⟨some new, headAddr t none, z⟩).put new ⟨none, some b, x⟩, first := some new, length := l1.length + 1 }, new, ?_, ?_, hsame⟩
    · simp [hf, Mem.setPrev, hmid, Mem.setNext, Mem.put, Ne.symm hnb, ho.cell]
    · have := rep_insert (L := []) (R := (b, z) :: t) h1 ho
        (m' := (l1.mem.put b ⟨some new, headAddr t none, z⟩).put new ⟨none, some b, x⟩)
        (f := some new) (t := l1.last) ?_ rfl ?_ ?_
      · exact this
      · apply seg_insert h1.seg h1.nodup ho.notMem
        · simp [Mem.put]
        · intro t a y e; simp at e
        · intro a y' t e
          simp at e
          obtain ⟨⟨rfl, rfl⟩, rfl⟩ := e
          simp [Mem.put, hnb]
        · intro b' h1 _ h3
          have := h3 b z t rfl
          simp [Mem.put, h1, this]
      · rw [h1.last]; simp
      · intro a ha; exact put_alloc (put_alloc (h1.poolAlloc a ha))

theorem append_spec {l : AxlList α} {ns : List (Nat × α)} (h : Rep l ns) (x : α) :
    ∃ l' a, l.append x = some l' ∧ Rep l' (ns ++ [(a, x)]) ∧ Same l l' := by
  obtain ⟨h1, ho, hsame⟩ := getNode_spec h x
  unfold append
  generalize l.getNode x = g at h1 ho hsame
  obtain ⟨new, l1⟩ := g
  dsimp only at h1 ho hsame ⊢
  rcases eq_nil_or_concat' ns with rfl | ⟨t, b, z, rfl⟩
  · have hf := h1.first
    have hl := h1.last
    simp only [headAddr_nil, lastAddr_nil] at hf hl
    refine ⟨{ l1 with first := some new, last := some new, length := l1.length + 1 }, new, by simp [hl], ?_, hsame⟩
    exact rep_insert (L := []) (R := []) h1 ho (m' := l1.mem) ⟨ho.cell, trivial⟩ rfl rfl h1.poolAlloc
  · have hl := h1.last
    simp only [lastAddr_concat] at hl
    have hmid := seg_mid h1.seg
    simp only [headAddr_nil] at hmid
    have hnb : b ≠ new := by intro e; apply ho.notMem; simp [e]
    have h1' : Rep l1 (t ++ [(b, z)] ++ []) := by simpa using h1
    have ho' : Out l1 (t ++ [(b, z)] ++ []) new x := by simpa using ho
    refine ⟨{ l1 with mem := (l1.mem.put b ⟨lastAddr t none, some new, z⟩).put new ⟨some b, none, x⟩, last := some new, length := l1.length + 1 }, new, ?_, ?_, hsame⟩
    · simp [hl, Mem.setPrev, hmid, Mem.setNext, Mem.put, Ne.symm hnb, ho.cell]
    · have := rep_insert (L := t ++ [(b, z)]) (R := []) h1' ho'
        (m' := (l1.mem.put b ⟨lastAddr t none, some new, z⟩).put new ⟨some b, none, x⟩)
        (f := l1.first) (t := some new) ?_ ?_ ?_ ?_
      · exact this
      · apply seg_insert h1'.seg h1'.nodup ho'.notMem
        · simp [Mem.put, lastAddr_concat]
        · intro t a y e
          have := List.append_inj' e rfl
          simp at this
          obtain ⟨rfl, rfl, rfl⟩ := this
          simp [Mem.put, hnb]
        · intro a y' t e; simp at e
        · intro b' h1 h2 h3
          have := h2 t b z rfl
          simp [Mem.put, h1, this]
      · rw [h1.first]; simp [headAddr_append]
      · simp [lastAddr_append]
      · intro a ha; exact put_alloc (put_alloc (h1.poolAlloc a ha))

theorem walk_spec {m : Mem α} (L R : List (Nat × α)) (p : Option Nat)
    (hs : Seg m p (L ++ R) none) :
    walk m L.length (headAddr (L ++ R) none) = some (headAddr R none) := by
  induction L generalizing p with
  | nil => rfl
  | cons c t ih =>
    obtain ⟨a, x⟩ := c
    have := ih _ hs.2
    simp only [List.cons_append, headAddr_cons, List.length_cons, walk]
    have h1 := hs.1
    simp [h1, this]

/-- The pointer part of `addAt`: the same final memory as `insertBefore`, written in another
order. -/
theorem addAt_mid_spec {l : AxlList α} {L R : List (Nat × α)} {new node : Nat} {x y : α}
    (hL : L ≠ []) (h : Rep l (L ++ (node, y) :: R)) (ho : Out l (L ++ (node, y) :: R) new x) :
    ∃ m', (do
      let cn ← l.mem node
      let m ← l.mem.setPrev new cn.prev
      let m ← match cn.prev with
        | some q => m.setNext q (some new)
        | none => some m
      let m ← m.setNext new (some node)
      let m ← m.setPrev node (some new)
      some m) = some m' ∧
      Rep { l with mem := m', length := l.length + 1 } (L ++ (new, x) :: (node, y) :: R) := by
  have hmid := seg_mid h.seg
  have hnn : node ≠ new := by
    intro e; apply ho.notMem; simp [e]
  rcases eq_nil_or_concat' L with rfl | ⟨t, a, z, rfl⟩
  · exact absurd rfl hL
  · have hna : node ≠ a := by
      intro e
      have := h.nodup
      simp [List.nodup_append, e] at this
    have hnewa : a ≠ new := by intro e; apply ho.notMem; simp [e]
    have ha : l.mem a = some ⟨lastAddr t none, some node, z⟩ := by
      have := h.seg
      rw [List.append_assoc] at this
      simpa using seg_mid this
    rw [lastAddr_concat] at hmid
    refine ⟨((((l.mem.put new ⟨some a, none, x⟩).put a ⟨lastAddr t none, some new, z⟩).put new ⟨some a, some node, x⟩).put node ⟨some new, headAddr R none, y⟩), ?_, ?_⟩
    · simp [hmid, Mem.setPrev, Mem.setNext, ho.cell, Mem.put, hnewa, ha, Ne.symm hnewa, hnn, hna]
    · have := rep_insert (L := t ++ [(a, z)]) (R := (node, y) :: R) h ho
        (m' := ((((l.mem.put new ⟨some a, none, x⟩).put a ⟨lastAddr t none, some new, z⟩).put new ⟨some a, some node, x⟩).put node ⟨some new, headAddr R none, y⟩))
        (f := l.first) (t := l.last) ?_ ?_ ?_ ?_
      · exact this
      · apply seg_insert h.seg h.nodup ho.notMem
        · simp [Mem.put, Ne.symm hnn, lastAddr_concat]
        · intro t' a' y' e
          have := List.append_inj' e rfl
          simp at this
          obtain ⟨rfl, rfl, rfl⟩ := this
          simp [Mem.put, Ne.symm hna, hnewa]
        · intro a' y' t' e
          simp at e
          obtain ⟨⟨rfl, rfl⟩, rfl⟩ := e
          simp [Mem.put]
        · intro b h1 h2 h3
          have h3' := h3 node y R rfl
          have h2' := h2 t a z rfl
          simp [Mem.put, h1, h3', h2']
      · rw [h.first]; simp [headAddr_append]
      · rw [h.last]; simp [lastAddr_append]
      · intro b hb; exact put_alloc (put_alloc (put_alloc (put_alloc (h.poolAlloc b hb))))

theorem addAt_spec {l : AxlList α} {ns : List (Nat × α)} (h : Rep l ns) (x : α) (p : Int) :
    ∃ l' a, l.addAt x p = some l' ∧
      Rep l' (ns.take p.toNat ++ (a, x) :: ns.drop p.toNat) ∧ Same l l' := by
  unfold addAt
  split
  · obtain ⟨l', a, h1, h2, h3⟩ := prepend_spec h x
    refine ⟨l', a, h1, ?_, h3⟩
    have : p.toNat = 0 := by omega
    simpa [this] using h2
  · split
    · obtain ⟨l', a, h1, h2, h3⟩ := append_spec h x
      refine ⟨l', a, h1, ?_, h3⟩
      have hl := h.len
      have : ns.length ≤ p.toNat := by omega
      simpa [List.take_of_length_le this, List.drop_of_length_le this] using h2
    · rename_i hp1 hp2
      have hl := h.len
      have hlt : p.toNat < ns.length := by omega
      obtain ⟨h1, ho, hsame⟩ := getNode_spec h x
      generalize l.getNode x = g at h1 ho hsame
      obtain ⟨new, l1⟩ := g
      dsimp only at h1 ho hsame ⊢
      have hsplit : ns = ns.take p.toNat ++ ns.drop p.toNat := (List.take_append_drop _ _).symm
      obtain ⟨node, y, R, hR⟩ : ∃ node y R, ns.drop p.toNat = (node, y) :: R := by
        cases hd : ns.drop p.toNat with
        | nil => simp [List.drop_eq_nil_iff] at hd; omega
        | cons c t => exact ⟨c.1, c.2, t, rfl⟩
      have hlen : (ns.take p.toNat).length = p.toNat := by simp; omega
      have hne : ns.take p.toNat ≠ [] := by
        intro e; rw [e] at hlen; simp at hlen; omega
      rw [hR] at hsplit ⊢
      generalize ns.take p.toNat = L at hsplit hlen hne
      subst hsplit
      have hw := walk_spec L ((node, y) :: R) none h1.seg
      rw [hlen, ← h1.first] at hw
      obtain ⟨m', hm, hrep⟩ := addAt_mid_spec hne h1 ho
      refine ⟨_, new, ?_, hrep, hsame⟩
      simp only [hw, headAddr_cons, Option.bind_eq_bind, Option.bind_some]
      cases hcn : l1.mem node with
      | none => simp [hcn] at hm
      | some cn =>
        simp only [hcn, Option.bind_eq_bind, Option.bind_some] at hm ⊢
        cases h2 : l1.mem.setPrev new cn.prev with
        | none => simp [h2] at hm
        | some m2 =>
          simp only [h2, Option.bind_some] at hm ⊢
          cases hq : cn.prev with
          | none =>
            simp only [hq] at hm ⊢
            simp only [← Option.bind_assoc] at hm ⊢
            obtain ⟨mm, h3, h4⟩ := Option.bind_eq_some_iff.1 hm
            cases h4
            rw [h3]; rfl
          | some q =>
            simp only [hq] at hm ⊢
            simp only [← Option.bind_assoc] at hm ⊢
            obtain ⟨mm, h3, h4⟩ := Option.bind_eq_some_iff.1 hm
            cases h4
            rw [h3]; rfl

theorem length_le_brk {l : AxlList α} {ns : List (Nat × α)} (h : Rep l ns) : ns.length ≤ l.brk := by
  have := h.cap; have := h.alloc; omega

theorem addLoop_spec {l : AxlList α} {ns : List (Nat × α)} {new : Nat} {x : α} (h : Rep l ns)
    (ho : Out l ns new x) (fuel : Nat) (A B C D : List (Nat × α)) (h1 : ns = A ++ B) (h2 : ns = C ++ D)
    (hlen : A.length = D.length)
    (hA : ∀ z ∈ A.map Prod.snd, l.areEqual z x ≠ -1 ∧ l.areEqual z x ≠ 0)
    (hD : ∀ z ∈ D.map Prod.snd, l.areEqual z x ≠ 1 ∧ l.areEqual z x ≠ 0)
    (hne : ns ≠ []) (hf : B.length < fuel) :
    ∃ l' ns', addLoop x new fuel l (headAddr B none) (lastAddr C none) = some l' ∧ Rep l' ns' ∧
      ((ns' = ns) ∨ ∃ L R, ns = L ++ R ∧ ns' = L ++ (new, x) :: R) ∧
      Spec.Seq.AddOutcome l.areEqual x (ns.map Prod.snd) (ns'.map Prod.snd) ∧ Same l l' := by
  induction fuel generalizing A B C D with
  | zero => omega
  | succ fuel ih =>
    have hBC : B.length = C.length := by
      have e1 : ns.length = A.length + B.length := by rw [h1]; simp
      have e2 : ns.length = C.length + D.length := by rw [h2]; simp
      omega
    unfold addLoop
    cases B with
    | nil =>
      have hC : C = [] := by simpa using hBC.symm
      subst hC
      refine ⟨l, ns, by simp, h, Or.inl rfl, ?_, Same.refl l⟩
      apply Spec.Seq.AddOutcome.noPlace
      · simpa using hne
      · intro z hz
        have hzA : z ∈ A.map Prod.snd := by rw [h1] at hz; simpa using hz
        have hzD : z ∈ D.map Prod.snd := by rw [h2] at hz; simpa using hz
        exact ⟨(hA z hzA).1, (hA z hzA).2, (hD z hzD).1⟩
    | cons c B =>
      obtain ⟨b, y⟩ := c
      obtain ⟨C', d, w, rfl⟩ : ∃ C' d w, C = C' ++ [(d, w)] := by
        rcases eq_nil_or_concat' C with rfl | h
        · simp at hBC
        · exact h
      simp only [headAddr_cons, lastAddr_concat, Option.isNone_some, Bool.false_and]
      have hb : l.mem b = some ⟨lastAddr A none, headAddr B none, y⟩ := by
        have := h.seg; rw [h1] at this; exact seg_mid this
      have hd : l.mem d = some ⟨lastAddr C' none, headAddr D none, w⟩ := by
        have := h.seg; rw [h2, List.append_assoc] at this; exact seg_mid this
      simp only [addHead, hb, Option.bind_eq_bind, Option.bind_some]
      by_cases hv1 : l.areEqual y x = -1
      · subst h1
        obtain ⟨l', hi, hr, hs⟩ := insertBefore_spec h ho
        refine ⟨l', A ++ (new, x) :: (b, y) :: B, by simp [hv1, hi], hr, Or.inr ⟨A, _, rfl, rfl⟩, ?_, hs⟩
        simp only [List.map_append, List.map_cons]
        exact Spec.Seq.AddOutcome.before hA hv1
      · by_cases hv0 : l.areEqual y x = 0
        · refine ⟨l, ns, by simp [hv0], h, Or.inl rfl, ?_, Same.refl l⟩
          exact Spec.Seq.AddOutcome.alreadyStored (y := y) (by rw [h1]; simp) hv0
        · simp only [hv1, hv0, if_false, Option.bind_some, addTail, hd, Option.bind_eq_bind]
          by_cases hw0 : l.areEqual w x = 0
          · refine ⟨l, ns, by simp [hw0], h, Or.inl rfl, ?_, Same.refl l⟩
            exact Spec.Seq.AddOutcome.alreadyStored (y := w) (by rw [h2]; simp) hw0
          · by_cases hw1 : l.areEqual w x = 1
            · have h2' : ns = C' ++ (d, w) :: D := by rw [h2]; simp
              subst h2'
              obtain ⟨l', hi, hr, hs⟩ := insertAfter_spec h ho
              refine ⟨l', C' ++ (d, w) :: (new, x) :: D, by simp [hw1, hi], hr,
                Or.inr ⟨C' ++ [(d, w)], D, by simp, by simp⟩, ?_, hs⟩
              simp only [List.map_append, List.map_cons]
              exact Spec.Seq.AddOutcome.after hD hw1
            · have := ih (A ++ [(b, y)]) B C' ((d, w) :: D) (by rw [h1]; simp) (by rw [h2]; simp)
                (by simp [hlen]) ?_ ?_ (by simp at hf; omega)
              · simpa [hw0, hw1] using this
              · intro z hz
                simp only [List.map_append, List.mem_append, List.map_cons, List.map_nil,
                  List.mem_singleton] at hz
                rcases hz with hz | rfl
                · exact hA z hz
                · exact ⟨hv1, hv0⟩
              · intro z hz
                simp only [List.map_cons, List.mem_cons] at hz
                rcases hz with rfl | hz
                · exact ⟨hw1, hw0⟩
                · exact hD z hz

theorem add_spec {l : AxlList α} {ns : List (Nat × α)} (h : Rep l ns) (x : α) :
    ∃ l' ns', l.add x = some l' ∧ Rep l' ns' ∧
      ((ns' = ns) ∨ ∃ L R a, ns = L ++ R ∧ ns' = L ++ (a, x) :: R) ∧
      Spec.Seq.AddOutcome l.areEqual x (ns.map Prod.snd) (ns'.map Prod.snd) ∧ Same l l' := by
  obtain ⟨h1, ho, hsame⟩ := getNode_spec h x
  unfold add
  generalize l.getNode x = g at h1 ho hsame
  obtain ⟨new, l1⟩ := g
  dsimp only at h1 ho hsame ⊢
  cases ns with
  | nil =>
    have hf := h1.first
    simp only [headAddr_nil] at hf
    have hlen := h1.len
    refine ⟨{ l1 with first := some new, last := some new, length := 1 }, [(new, x)], by simp [hf], ?_,
      Or.inr ⟨[], [], new, rfl, rfl⟩, Spec.Seq.AddOutcome.empty, hsame⟩
    have := rep_insert (L := []) (R := []) h1 ho (m' := l1.mem) ⟨ho.cell, trivial⟩ rfl rfl h1.poolAlloc
    simpa [hlen] using this
  | cons c t =>
    have hf := h1.first
    obtain ⟨b, z⟩ := c
    obtain ⟨l', ns', h3, h4, h5, h6, h7⟩ := addLoop_spec h1 ho (l1.brk + 1) [] ((b, z) :: t)
      ((b, z) :: t) [] rfl (by simp) rfl (by simp) (by simp) (by simp)
      (by have := length_le_brk h1; omega)
    refine ⟨l', ns', ?_, h4, ?_, ?_, hsame.trans h7⟩
    · simp only [headAddr_cons] at hf
      rw [hf, h1.last]
      exact h3
    · rcases h5 with h5 | ⟨L, R, h5, h6⟩
      · exact Or.inl h5
      · exact Or.inr ⟨L, R, new, h5, h6⟩
    · rw [← hsame.1]; exact h6

/-- Taking a node out of the middle. -/
theorem seg_remove {m : Mem α} {L R : List (Nat × α)} {a : Nat} {x : α}
    (hs : Seg m none (L ++ (a, x) :: R) none) (hnd : ((L ++ (a, x) :: R).map Prod.fst).Nodup) :
    ∃ m' f t,
      (m' = m ∧ L = [] ∧ f = headAddr R none ∨
        (∃ p, lastAddr L none = some p ∧ m.setNext p (headAddr R none) = some m') ∧ f = headAddr L none) ∧
      ∃ m'', (m'' = m' ∧ R = [] ∧ t = lastAddr L none ∨
        (∃ n, headAddr R none = some n ∧ m'.setPrev n (lastAddr L none) = some m'') ∧ t = lastAddr R none) ∧
      Seg m'' none (L ++ R) none ∧ (∀ b, (∃ c, m b = some c) → ∃ c, m'' b = some c) := by
  have hnd' := hnd
  simp only [List.map_append, List.map_cons, List.nodup_append, List.nodup_cons, List.mem_cons] at hnd'
  obtain ⟨hndL, ⟨haR, hndR⟩, hdis⟩ := hnd'
  rcases eq_nil_or_concat' L with rfl | ⟨t, p, z, rfl⟩
  · refine ⟨m, headAddr R none, lastAddr R none, Or.inl ⟨rfl, rfl, rfl⟩, ?_⟩
    cases R with
    | nil => exact ⟨m, Or.inl ⟨rfl, rfl, rfl⟩, trivial, fun b hb => hb⟩
    | cons c R =>
      obtain ⟨n, w⟩ := c
      have h2 := hs.2
      simp only [List.map_cons, List.nodup_cons] at hndR
      obtain ⟨m'', e1, e2, e3⟩ := seg_setPrev none h2 hndR.1
      refine ⟨m'', Or.inr ⟨⟨n, rfl, e1⟩, rfl⟩, e2, ?_⟩
      intro b hb
      by_cases e : b = n
      · exact ⟨_, e ▸ e2.1⟩
      · rw [e3 b e]; exact hb
  · rw [seg_append] at hs
    obtain ⟨hs1, hs2⟩ := hs
    have hpt : p ∉ t.map Prod.fst := by
      simp only [List.map_append, List.map_cons, List.nodup_append] at hndL
      intro hp; exact hndL.2.2 p hp p (by simp) rfl
    obtain ⟨m', e1, e2, e3⟩ := seg_setNext (headAddr R none) hs1 hpt
    have halloc : ∀ b, (∃ c, m b = some c) → ∃ c, m' b = some c := by
      intro b hb
      by_cases e : b = p
      · exact seg_alloc e2 (by simp [e])
      · rw [e3 b e]; exact hb
    have hR' : Seg m' (some a) R none := by
      apply seg_frame _ hs2.2
      intro b hb
      apply e3
      intro e
      exact hdis p (by simp) b (Or.inr hb) e.symm
    cases R with
    | nil =>
      refine ⟨m', headAddr (t ++ [(p, z)]) none, lastAddr (t ++ [(p, z)]) none,
        Or.inr ⟨⟨p, lastAddr_concat _ _ _ _, e1⟩, rfl⟩, m', Or.inl ⟨rfl, rfl, rfl⟩, ?_, halloc⟩
      simpa using e2
    | cons c R =>
      obtain ⟨n, w⟩ := c
      simp only [List.map_cons, List.nodup_cons] at hndR
      obtain ⟨m'', g1, g2, g3⟩ := seg_setPrev (some p) hR' hndR.1
      refine ⟨m', headAddr (t ++ [(p, z)]) none, lastAddr ((n, w) :: R) none,
        Or.inr ⟨⟨p, lastAddr_concat _ _ _ _, e1⟩, rfl⟩, m'',
        Or.inr ⟨⟨n, rfl, by rw [lastAddr_concat]; exact g1⟩, rfl⟩, ?_, ?_⟩
      · rw [seg_append]
        refine ⟨seg_frame ?_ e2, ?_⟩
        · intro b hb
          apply g3
          intro e
          exact hdis b hb n (by simp) e
        · rw [lastAddr_concat]; exact g2
      · intro b hb
        by_cases e : b = n
        · exact ⟨_, e ▸ g2.1⟩
        · rw [g3 b e]; exact halloc b hb

theorem removeNode_spec {l : AxlList α} {L R : List (Nat × α)} {a : Nat} {x : α}
    (h : Rep l (L ++ (a, x) :: R)) (d : Bool) :
    ∃ l', l.removeNode a d = some l' ∧ Rep l' (L ++ R) ∧ l'.areEqual = l.areEqual ∧
      l'.hasDestroy = l.hasDestroy ∧
      l'.destroyed = l.destroyed ++ (if d && l.hasDestroy then [x] else []) := by
  have hmid := seg_mid h.seg
  obtain ⟨m', f, t, hc1, m'', hc2, hs, hal⟩ := seg_remove h.seg h.nodup
  have hcap := h.cap
  simp only [List.length_append, List.length_cons] at hcap
  have hpl : l.pool.length < l.allocated := by have := h.alloc; omega
  have hnd := h.nodup
  simp only [List.map_append, List.map_cons, List.nodup_append, List.nodup_cons, List.mem_cons] at hnd
  -- the resulting list
  have key : Rep { l with
      mem := m'', first := headAddr (L ++ R) none, last := lastAddr (L ++ R) none,
      pool := a :: l.pool, length := l.length - 1 } (L ++ R) := by
    refine ⟨hs, rfl, rfl, ?_, ?_, ?_, ?_, ?_, ?_, ?_, ?_, h.alloc⟩
    · have := h.len
      simp only [List.length_append, List.length_cons] at this ⊢
      omega
    · simp only [List.map_append, List.nodup_append]
      exact ⟨hnd.1, hnd.2.1.2, fun b hb c hc => hnd.2.2 b hb c (Or.inr hc)⟩
    · intro b hb
      apply h.bound
      simp only [List.map_append, List.map_cons, List.mem_append, List.mem_cons] at hb ⊢
      rcases hb with hb | hb
      · exact Or.inl hb
      · exact Or.inr (Or.inr hb)
    · refine List.nodup_cons.2 ⟨?_, h.poolNodup⟩
      intro ha
      exact h.poolDisj a ha (by simp)
    · intro b hb
      simp only [List.mem_cons] at hb
      rcases hb with rfl | hb
      · exact h.bound b (by simp)
      · exact h.poolBound b hb
    · intro b hb
      simp only [List.mem_cons] at hb
      simp only [List.map_append, List.mem_append, not_or]
      rcases hb with rfl | hb
      · exact ⟨fun hm => hnd.2.2 b hm b (Or.inl rfl) rfl, hnd.2.1.1⟩
      · have := h.poolDisj b hb
        simp only [List.map_append, List.map_cons, List.mem_append, List.mem_cons, not_or] at this
        exact ⟨this.1, this.2.2⟩
    · intro b hb
      apply hal
      simp only [List.mem_cons] at hb
      rcases hb with rfl | hb
      · exact ⟨_, hmid⟩
      · exact h.poolAlloc b hb
    · simp only [List.length_append, List.length_cons]; omega
  refine ⟨{ l with
      mem := m'', first := headAddr (L ++ R) none, last := lastAddr (L ++ R) none,
      pool := a :: l.pool, length := l.length - 1,
      destroyed := l.destroyed ++ (if d && l.hasDestroy then [x] else []) }, ?_, ?_, rfl, rfl, rfl⟩
  · have hf := h.first
    have hl := h.last
    simp only [removeNode, hmid, Option.bind_eq_bind, Option.bind_some]
    rcases hc1 with ⟨e1, e2, e3⟩ | ⟨⟨p, e1, e2⟩, e3⟩
    · subst e1; subst e2
      simp only [lastAddr_nil, Option.bind_some]
      rcases hc2 with ⟨g1, g2, g3⟩ | ⟨⟨n, g1, g2⟩, g3⟩
      · subst g1; subst g2
        simp only [headAddr_nil, Option.bind_some]
        cases hd : (d && l.hasDestroy) <;> simp [hpl, disposeNode]
      · simp only [lastAddr_nil] at g2
        simp only [g1, g2, Option.map_some, Option.bind_some]
        have hlast : l.last = lastAddr R none := by
          rw [hl]
          simp only [List.nil_append, lastAddr_cons]
          apply lastAddr_ne_none
          intro e; rw [e] at g1; simp at g1
        cases hd : (d && l.hasDestroy) <;> simp [hpl, disposeNode, hlast, g1]
    · simp only [e1, e2, Option.map_some, Option.bind_some]
      have hLne : L ≠ [] := by intro e; rw [e] at e1; simp at e1
      have hfirst : l.first = headAddr (L ++ R) none := by
        rw [hf]
        cases L with
        | nil => exact absurd rfl hLne
        | cons c t => rfl
      rcases hc2 with ⟨g1, g2, g3⟩ | ⟨⟨n, g1, g2⟩, g3⟩
      · subst g1; subst g2
        simp only [headAddr_nil, Option.bind_some]
        cases hd : (d && l.hasDestroy) <;>
          simp only [hd, Bool.false_eq_true, if_true, if_false, disposeNode, hpl, hfirst, ← e1,
            List.append_nil, Option.bind_some]
      · rw [e1] at g2
        simp only [g1, g2, Option.map_some, Option.bind_some]
        have hlast : l.last = lastAddr (L ++ R) none := by
          rw [hl, lastAddr_append, lastAddr_append, lastAddr_cons]
          have hRne : R ≠ [] := by intro e; rw [e] at g1; simp at g1
          rw [lastAddr_ne_none R hRne, lastAddr_ne_none R hRne (lastAddr L none)]
        cases hd : (d && l.hasDestroy) <;>
          simp only [hd, Bool.false_eq_true, if_true, if_false, disposeNode, hpl, hfirst, hlast,
            List.append_nil, Option.bind_some]
  · exact ⟨key.seg, key.first, key.last, key.len, key.nodup, key.bound, key.poolNodup, key.poolBound,
      key.poolDisj, key.poolAlloc, key.cap, key.alloc⟩

end AxlList
end Axl
