/-
Searching, removing, freeing, copying and cursors over the representation of axlList.
-/
import Verif.Proofs.List

namespace Axl
namespace AxlList
variable {α : Type}

theorem find_spec {m : Mem α} (test : Nat → α → Bool) (ns : List (Nat × α)) (p : Option Nat)
    (hs : Seg m p ns none) (fuel i : Nat) (hf : ns.length < fuel) :
    (find m test fuel i (headAddr ns none) = some none ∧
      ∀ j (hj : j < ns.length), test (i + j) ns[j].2 = false) ∨
    ∃ L a x R, ns = L ++ (a, x) :: R ∧ find m test fuel i (headAddr ns none) = some (some a) ∧
      test (i + L.length) x = true ∧ ∀ j (hj : j < L.length), test (i + j) L[j].2 = false := by
  induction ns generalizing p fuel i with
  | nil =>
    cases fuel with
    | zero => omega
    | succ f => left; simp [find]
  | cons c t ih =>
    obtain ⟨a, x⟩ := c
    cases fuel with
    | zero => omega
    | succ f =>
      obtain ⟨h1, h2⟩ := hs
      simp only [headAddr_cons, find, h1, Option.bind_eq_bind, Option.bind_some]
      by_cases ht : test i x = true
      · right
        exact ⟨[], a, x, t, rfl, by simp [ht], by simpa using ht, by simp⟩
      · simp only [ht]
        rcases ih (some a) h2 f (i + 1) (by simp at hf; omega) with ⟨g1, g2⟩ | ⟨L, b, y, R, g1, g2, g3, g4⟩
        · left
          refine ⟨by simpa using g1, ?_⟩
          intro j hj
          cases j with
          | zero => simpa using ht
          | succ j =>
            have := g2 j (by simp at hj; omega)
            simpa [Nat.add_assoc, Nat.add_comm 1] using this
        · right
          refine ⟨(a, x) :: L, b, y, R, by simp [g1], by simpa using g2, ?_, ?_⟩
          · simpa [Nat.add_assoc, Nat.add_comm 1] using g3
          · intro j hj
            cases j with
            | zero => simpa using ht
            | succ j =>
              have := g4 j (by simp at hj; omega)
              simpa [Nat.add_assoc, Nat.add_comm 1] using this

/-- `find` with a test on the data only. -/
theorem find_data {m : Mem α} (test : α → Bool) (ns : List (Nat × α)) (p : Option Nat)
    (hs : Seg m p ns none) (fuel i : Nat) (hf : ns.length < fuel) :
    (find m (fun _ y => test y) fuel i (headAddr ns none) = some none ∧
      ∀ y ∈ ns.map Prod.snd, test y = false) ∨
    ∃ L a x R, ns = L ++ (a, x) :: R ∧ find m (fun _ y => test y) fuel i (headAddr ns none) = some (some a) ∧
      test x = true ∧ ∀ y ∈ L.map Prod.snd, test y = false := by
  rcases find_spec (fun _ y => test y) ns p hs fuel i hf with ⟨g1, g2⟩ | ⟨L, a, x, R, g1, g2, g3, g4⟩
  · left
    refine ⟨g1, ?_⟩
    intro y hy
    obtain ⟨z, hz, rfl⟩ := List.mem_map.1 hy
    obtain ⟨j, hj, rfl⟩ := List.mem_iff_getElem.1 hz
    exact g2 j hj
  · right
    refine ⟨L, a, x, R, g1, g2, g3, ?_⟩
    intro y hy
    obtain ⟨z, hz, rfl⟩ := List.mem_map.1 hy
    obtain ⟨j, hj, rfl⟩ := List.mem_iff_getElem.1 hz
    exact g4 j hj

/-- `find` with a test on the position only. -/
theorem find_pos {m : Mem α} (k : Int) (ns : List (Nat × α)) (p : Option Nat)
    (hs : Seg m p ns none) (fuel : Nat) (hf : ns.length < fuel) :
    (find m (fun i _ => (i : Int) == k) fuel 0 (headAddr ns none) = some none ∧
      (k < 0 ∨ ns.length ≤ k)) ∨
    ∃ L a x R, ns = L ++ (a, x) :: R ∧
      find m (fun i _ => (i : Int) == k) fuel 0 (headAddr ns none) = some (some a) ∧ k = L.length := by
  rcases find_spec (fun i _ => (i : Int) == k) ns p hs fuel 0 hf with ⟨g1, g2⟩ | ⟨L, a, x, R, g1, g2, g3, g4⟩
  · left
    refine ⟨g1, ?_⟩
    by_cases h0 : k < 0
    · exact Or.inl h0
    · right
      apply Decidable.byContradiction; intro hlt
      have := g2 k.toNat (by omega)
      simp at this
      omega
  · right
    refine ⟨L, a, x, R, g1, g2, ?_⟩
    simp at g3
    omega

/-- What a removing operation leaves: the element at the split point is gone. -/
structure Removed (l l' : AxlList α) (ns' : List (Nat × α)) (d : Bool) (o : Option α) : Prop where
  rep : Rep l' ns'
  areEqual : l'.areEqual = l.areEqual
  hasDestroy : l'.hasDestroy = l.hasDestroy
  destroyed : l'.destroyed = l.destroyed ++ (if d && l.hasDestroy then o.toList else [])

theorem Removed.none {l : AxlList α} {ns : List (Nat × α)} (h : Rep l ns) (d : Bool) :
    Removed l l ns d none := ⟨h, rfl, rfl, by simp⟩

theorem removeNode_removed {l : AxlList α} {L R : List (Nat × α)} {a : Nat} {x : α}
    (h : Rep l (L ++ (a, x) :: R)) (d : Bool) :
    ∃ l', l.removeNode a d = some l' ∧ Removed l l' (L ++ R) d (some x) := by
  obtain ⟨l', h1, h2, h3, h4, h5⟩ := removeNode_spec h d
  exact ⟨l', h1, h2, h3, h4, by simpa using h5⟩

theorem removeFirst_spec {l : AxlList α} {ns : List (Nat × α)} (h : Rep l ns) (d : Bool) :
    ∃ l', l.removeFirst d = some l' ∧ Removed l l' ns.tail d (ns.map Prod.snd).head? := by
  unfold removeFirst
  rw [h.first]
  cases ns with
  | nil => exact ⟨l, rfl, Removed.none h d⟩
  | cons c t =>
    obtain ⟨a, x⟩ := c
    exact removeNode_removed (L := []) h d

theorem removeLast_spec {l : AxlList α} {ns : List (Nat × α)} (h : Rep l ns) (d : Bool) :
    ∃ l', l.removeLast d = some l' ∧ Removed l l' ns.dropLast d (ns.map Prod.snd).getLast? := by
  unfold removeLast
  rw [h.last]
  rcases eq_nil_or_concat' ns with rfl | ⟨t, a, x, rfl⟩
  · exact ⟨l, rfl, Removed.none h d⟩
  · simp only [lastAddr_concat]
    obtain ⟨l', h1, h2⟩ := removeNode_removed (L := t) (R := []) h d
    refine ⟨l', h1, ?_⟩
    simpa using h2

theorem fuel_ok {l : AxlList α} {ns : List (Nat × α)} (h : Rep l ns) : ns.length < l.brk + 1 := by
  have := length_le_brk h; omega

theorem removeAt_spec {l : AxlList α} {ns : List (Nat × α)} (h : Rep l ns) (k : Nat) (d : Bool) :
    ∃ l', l.removeAt k d = some l' ∧ Removed l l' (ns.eraseIdx k) d (ns.map Prod.snd)[k]? := by
  unfold removeAt
  rw [h.first]
  rcases find_pos (k : Int) ns none h.seg _ (fuel_ok h) with ⟨g1, g2⟩ | ⟨L, a, x, R, rfl, g2, g3⟩
  · have hk : ns.length ≤ k := by omega
    refine ⟨l, by simp [g1], ?_⟩
    rw [List.eraseIdx_of_length_le hk, List.getElem?_eq_none (by simpa using hk)]
    exact Removed.none h d
  · obtain ⟨l', h1, h2⟩ := removeNode_removed h d
    refine ⟨l', by simp [g2, h1], ?_⟩
    have hk : k = L.length := by omega
    subst hk
    simpa [List.eraseIdx_append_of_length_le] using h2

theorem removeAt_neg {l : AxlList α} {ns : List (Nat × α)} (h : Rep l ns) (k : Int) (hk : k < 0) (d : Bool) :
    l.removeAt k d = some l := by
  unfold removeAt
  rw [h.first]
  rcases find_pos k ns none h.seg _ (fuel_ok h) with ⟨g1, g2⟩ | ⟨L, a, x, R, rfl, g2, g3⟩
  · simp [g1]
  · omega

theorem remove_spec {l : AxlList α} {ns : List (Nat × α)} (h : Rep l ns) (x : α) (d : Bool) :
    ∃ l' ns', l.remove x d = some l' ∧
      ns'.map Prod.snd = (ns.map Prod.snd).eraseP (fun y => l.areEqual y x == 0) ∧
      Removed l l' ns' d ((ns.map Prod.snd).find? (fun y => l.areEqual y x == 0)) := by
  unfold remove
  rw [h.first]
  rcases find_data (fun y => l.areEqual y x == 0) ns none h.seg _ 0 (fuel_ok h) with
    ⟨g1, g2⟩ | ⟨L, a, z, R, rfl, g2, g3, g4⟩
  · refine ⟨l, ns, by simp [g1], ?_, ?_⟩
    · rw [List.eraseP_of_forall_not]
      intro y hy; simp [g2 y hy]
    · rw [List.find?_eq_none.2 (fun y hy => by simp [g2 y hy])]
      exact Removed.none h d
  · obtain ⟨l', h1, h2⟩ := removeNode_removed h d
    refine ⟨l', L ++ R, by simp [g2, h1], ?_, ?_⟩
    · have hL : ∀ y ∈ L.map Prod.snd, ¬ (l.areEqual y x == 0) = true := by
        intro y hy; simp [g4 y hy]
      rw [List.map_append, List.map_append, List.eraseP_append_right _ hL, List.map_cons,
        List.eraseP_cons_of_pos (by simpa using g3)]
    · rw [List.map_append, List.find?_append, List.find?_eq_none.2 (fun y hy => by simp [g4 y hy])]
      simp only [Option.none_or, List.map_cons]
      rw [List.find?_cons_of_pos (by simpa using g3)]
      exact h2

theorem removePtr_spec [DecidableEq α] {l : AxlList α} {ns : List (Nat × α)} (h : Rep l ns) (x : α) (d : Bool) :
    ∃ l' ns', l.removePtr x d = some l' ∧
      ns'.map Prod.snd = (ns.map Prod.snd).erase x ∧
      Removed l l' ns' d (if x ∈ ns.map Prod.snd then some x else none) := by
  unfold removePtr
  rw [h.first]
  rcases find_data (fun y => decide (y = x)) ns none h.seg _ 0 (fuel_ok h) with
    ⟨g1, g2⟩ | ⟨L, a, z, R, rfl, g2, g3, g4⟩
  · have hx : x ∉ ns.map Prod.snd := by
      intro hx; simpa using g2 x hx
    refine ⟨l, ns, by simp [g1], ?_, ?_⟩
    · rw [List.erase_of_not_mem hx]
    · rw [if_neg hx]; exact Removed.none h d
  · obtain ⟨l', h1, h2⟩ := removeNode_removed h d
    simp only [decide_eq_true_eq] at g3
    subst g3
    have hx : z ∉ L.map Prod.snd := by
      intro hx; simpa using g4 z hx
    refine ⟨l', L ++ R, by simp [g2, h1], ?_, ?_⟩
    · rw [List.map_append, List.map_append, List.erase_append_right _ hx]
      simp
    · rw [if_pos (by simp)]; exact h2

theorem getNth_spec {l : AxlList α} {ns : List (Nat × α)} (h : Rep l ns) (k : Int) :
    l.getNth k = some (if k < 0 then none else (ns.map Prod.snd)[k.toNat]?) := by
  unfold getNth internalGetNth
  have hl := h.len
  split
  · rw [h.first]
    rcases find_pos k ns none h.seg _ (fuel_ok h) with ⟨g1, g2⟩ | ⟨L, a, x, R, rfl, g2, g3⟩
    · omega
    · have hm := seg_mid h.seg
      simp only [g2, hm, Option.bind_eq_bind, Option.bind_some]
      rw [if_neg (by omega)]
      have : k.toNat = L.length := by omega
      simp [this]
  · simp only [Option.bind_eq_bind, Option.bind_some]
    split
    · rfl
    · rw [List.getElem?_eq_none]
      simp; omega

theorem getFirst_spec {l : AxlList α} {ns : List (Nat × α)} (h : Rep l ns) :
    l.getFirst = some (ns.map Prod.snd).head? := by
  unfold getFirst
  rw [h.first]
  cases ns with
  | nil => rfl
  | cons c t =>
    obtain ⟨a, x⟩ := c
    have := h.seg.1
    simp [this]

theorem getLast_spec {l : AxlList α} {ns : List (Nat × α)} (h : Rep l ns) :
    l.getLast = some (ns.map Prod.snd).getLast? := by
  unfold getLast
  rw [h.last]
  rcases eq_nil_or_concat' ns with rfl | ⟨t, a, x, rfl⟩
  · rfl
  · have hm := seg_mid h.seg
    simp [lastAddr_concat, hm]

theorem isEmpty_spec {l : AxlList α} {ns : List (Nat × α)} (h : Rep l ns) :
    l.isEmpty = (ns.map Prod.snd).isEmpty := by
  unfold isEmpty
  rw [h.first]
  cases ns with
  | nil => rfl
  | cons c t => rfl

theorem lookup_spec {l : AxlList α} {ns : List (Nat × α)} (h : Rep l ns) (f : α → Bool) :
    l.lookup f = some ((ns.map Prod.snd).find? f) := by
  unfold lookup
  rw [h.first]
  rcases find_data f ns none h.seg _ 0 (fuel_ok h) with ⟨g1, g2⟩ | ⟨L, a, z, R, rfl, g2, g3, g4⟩
  · simp only [g1, Option.bind_eq_bind, Option.bind_some]
    rw [List.find?_eq_none.2 (fun y hy => by simp [g2 y hy])]
  · have hm := seg_mid h.seg
    simp only [g2, hm, Option.bind_eq_bind, Option.bind_some]
    rw [List.map_append, List.find?_append, List.find?_eq_none.2 (fun y hy => by simp [g4 y hy])]
    simp only [Option.none_or, List.map_cons]
    rw [List.find?_cons_of_pos g3]

/-! ### free -/

theorem free_cell {m : Mem α} {a : Nat} {c : Cell α} (h : m a = some c) :
    ∃ m', m.free a = some m' ∧ (∀ b, b ≠ a → m' b = m b) ∧ m' a = none := by
  refine ⟨fun b => if b = a then none else m b, ?_, ?_, ?_⟩
  · simp [Mem.free, h]
  · intro b hb; simp [hb]
  · simp

theorem freeLoop_spec (hd : Bool) (ns : List (Nat × α)) (m : Mem α) (p : Option Nat)
    (hs : Seg m p ns none) (hnd : (ns.map Prod.fst).Nodup) (fuel : Nat) (hf : ns.length < fuel) (log : List α) :
    ∃ m', freeLoop hd fuel m (headAddr ns none) log =
        some (m', log ++ (if hd then ns.map Prod.snd else [])) ∧
      (∀ b, b ∉ ns.map Prod.fst → m' b = m b) ∧ (∀ b ∈ ns.map Prod.fst, m' b = none) := by
  induction ns generalizing m p fuel log with
  | nil =>
    cases fuel with
    | zero => omega
    | succ f => exact ⟨m, by simp [freeLoop], by simp, by simp⟩
  | cons c t ih =>
    obtain ⟨a, x⟩ := c
    cases fuel with
    | zero => omega
    | succ f =>
      obtain ⟨h1, h2⟩ := hs
      simp only [List.map_cons, List.nodup_cons] at hnd
      obtain ⟨m1, e1, e2, e3⟩ := free_cell h1
      have hs' : Seg m1 (some a) t none :=
        seg_frame (fun b hb => e2 b (fun e => hnd.1 (e ▸ hb))) h2
      obtain ⟨m', g1, g2, g3⟩ := ih m1 (some a) hs' hnd.2 f (by simp at hf; omega)
        (if hd then log ++ [x] else log)
      refine ⟨m', ?_, ?_, ?_⟩
      · simp only [headAddr_cons, freeLoop, h1, e1, Option.bind_eq_bind, Option.bind_some, g1]
        cases hd <;> simp
      · intro b hb
        simp only [List.map_cons, List.mem_cons, not_or] at hb
        rw [g2 b hb.2, e2 b hb.1]
      · intro b hb
        simp only [List.map_cons, List.mem_cons] at hb
        by_cases hbt : b ∈ t.map Prod.fst
        · exact g3 b hbt
        · rw [g2 b hbt]
          rcases hb with rfl | hb
          · exact e3
          · exact absurd hb hbt

theorem freePool_spec (ps : List Nat) (m : Mem α) (hnd : ps.Nodup) (hal : ∀ a ∈ ps, ∃ c, m a = some c) :
    ∃ m', freePool ps m = some m' ∧ (∀ b, b ∉ ps → m' b = m b) ∧ ∀ b ∈ ps, m' b = none := by
  induction ps generalizing m with
  | nil => exact ⟨m, rfl, by simp, by simp⟩
  | cons a t ih =>
    simp only [List.nodup_cons] at hnd
    obtain ⟨c, hc⟩ := hal a (by simp)
    obtain ⟨m1, e1, e2, e3⟩ := free_cell hc
    obtain ⟨m', g1, g2, g3⟩ := ih m1 hnd.2 (by
      intro b hb
      rw [e2 b (fun e => hnd.1 (e ▸ hb))]
      exact hal b (by simp [hb]))
    refine ⟨m', by simp [freePool, e1, g1], ?_, ?_⟩
    · intro b hb
      simp only [List.mem_cons, not_or] at hb
      rw [g2 b hb.2, e2 b hb.1]
    · intro b hb
      by_cases hbt : b ∈ t
      · exact g3 b hbt
      · rw [g2 b hbt]
        simp only [List.mem_cons] at hb
        rcases hb with rfl | hb
        · exact e3
        · exact absurd hb hbt

theorem free_spec {l : AxlList α} {ns : List (Nat × α)} (h : Rep l ns) :
    ∃ m, l.free = some (m, l.destroyed ++ (if l.hasDestroy then ns.map Prod.snd else [])) ∧
      (∀ b ∈ ns.map Prod.fst, m b = none) ∧ (∀ b ∈ l.pool, m b = none) ∧
      (∀ b, b ∉ ns.map Prod.fst → b ∉ l.pool → m b = l.mem b) := by
  obtain ⟨m1, e1, e2, e3⟩ := freeLoop_spec l.hasDestroy ns l.mem none h.seg h.nodup _ (fuel_ok h) l.destroyed
  obtain ⟨m2, g1, g2, g3⟩ := freePool_spec l.pool m1 h.poolNodup (by
    intro a ha
    rw [e2 a (h.poolDisj a ha)]
    exact h.poolAlloc a ha)
  refine ⟨m2, ?_, ?_, g3, ?_⟩
  · unfold free
    rw [h.first, e1]
    simp [g1]
  · intro b hb
    rw [g2 b (fun hp => h.poolDisj b hp hb)]
    exact e3 b hb
  · intro b h1 h2
    rw [g2 b h2, e2 b h1]

/-! ### cursors -/

/-- Address of the node at position `k`. -/
def addrAt (ns : List (Nat × α)) (k : Option Nat) : Option Nat :=
  match k with
  | none => none
  | some i => (ns.map Prod.fst)[i]?

/-- The cursor `c` stands over the list of nodes `ns`, at position `k` (`none`: outside). -/
structure CRep (c : Cursor α) (ns : List (Nat × α)) (k : Option Nat) : Prop where
  rep : Rep c.list ns
  cur : c.current = addrAt ns k
  inside : ∀ i, k = some i → i < ns.length

theorem split_at {ns : List (Nat × α)} {i : Nat} (h : i < ns.length) :
    ∃ L a x R, ns = L ++ (a, x) :: R ∧ L.length = i := by
  refine ⟨ns.take i, ns[i].1, ns[i].2, ns.drop (i + 1), ?_, by simp; omega⟩
  have := List.drop_eq_getElem_cons h
  rw [← this, List.take_append_drop]

theorem headAddr_eq_getElem (ns : List (Nat × α)) : headAddr ns none = (ns.map Prod.fst)[0]? := by
  cases ns with
  | nil => rfl
  | cons c t => rfl

theorem lastAddr_eq_getElem (ns : List (Nat × α)) (h : ns ≠ []) :
    lastAddr ns none = (ns.map Prod.fst)[ns.length - 1]? := by
  rcases eq_nil_or_concat' ns with rfl | ⟨t, a, x, rfl⟩
  · exact absurd rfl h
  · simp [lastAddr_concat]

theorem cursorNew_spec {l : AxlList α} {ns : List (Nat × α)} (h : Rep l ns) :
    CRep (cursorNew l) ns (if ns = [] then none else some 0) := by
  refine ⟨h, ?_, ?_⟩
  · simp only [cursorNew]
    rw [h.first, headAddr_eq_getElem]
    split
    · rename_i e; subst e; rfl
    · rfl
  · intro i
    split
    · simp
    · rename_i e
      intro h; cases h
      exact List.length_pos_iff.2 e

theorem toFirst_spec {c : Cursor α} {ns : List (Nat × α)} {k : Option Nat} (h : CRep c ns k) :
    CRep c.toFirst ns (if ns = [] then none else some 0) := by
  have hl := h.rep.len
  unfold Cursor.toFirst
  by_cases e : ns = []
  · subst e
    rw [if_pos (by simpa using hl)]
    exact ⟨h.rep, rfl, by simp⟩
  · have hpos := List.length_pos_iff.2 e
    rw [if_neg (by omega), if_neg e]
    refine ⟨h.rep, ?_, ?_⟩
    · simp only []
      rw [h.rep.first, headAddr_eq_getElem]
      rfl
    · intro i hi; cases hi; exact hpos

theorem toLast_spec {c : Cursor α} {ns : List (Nat × α)} {k : Option Nat} (h : CRep c ns k) :
    CRep c.toLast ns (if ns = [] then none else some (ns.length - 1)) := by
  unfold Cursor.toLast
  by_cases e : ns = []
  · subst e
    refine ⟨h.rep, ?_, by simp⟩
    simp only []
    rw [h.rep.last]; rfl
  · have hpos := List.length_pos_iff.2 e
    rw [if_neg e]
    refine ⟨h.rep, ?_, ?_⟩
    · simp only []
      rw [h.rep.last, lastAddr_eq_getElem ns e]
      rfl
    · intro i hi; cases hi; omega

/-- The cell under the cursor. -/
theorem crep_cell {c : Cursor α} {ns : List (Nat × α)} {i : Nat} (h : CRep c ns (some i)) :
    ∃ L a x R, ns = L ++ (a, x) :: R ∧ L.length = i ∧ c.current = some a ∧
      c.list.mem a = some ⟨lastAddr L none, headAddr R none, x⟩ := by
  obtain ⟨L, a, x, R, rfl, hL⟩ := split_at (h.inside i rfl)
  refine ⟨L, a, x, R, rfl, hL, ?_, seg_mid h.rep.seg⟩
  rw [h.cur]
  simp [addrAt, ← hL]

theorem crep_none {c : Cursor α} {ns : List (Nat × α)} (h : CRep c ns none) : c.current = none := h.cur

theorem next_spec {c : Cursor α} {ns : List (Nat × α)} {k : Option Nat} (h : CRep c ns k) :
    ∃ c', c.next = some c' ∧ c'.list = c.list ∧
      CRep c' ns (k.bind fun i => if i + 1 < ns.length then some (i + 1) else none) := by
  cases k with
  | none =>
    refine ⟨c, ?_, rfl, h⟩
    simp [Cursor.next, crep_none h]
  | some i =>
    obtain ⟨L, a, x, R, rfl, hL, hc, hm⟩ := crep_cell h
    refine ⟨{ c with current := headAddr R none }, by simp [Cursor.next, hc, hm], rfl, h.rep, ?_, ?_⟩
    · simp only [Option.bind_some]
      cases R with
      | nil => simp [hL, addrAt]
      | cons d R =>
        rw [if_pos (by simp; omega)]
        simp [addrAt, ← hL, headAddr_eq_getElem, List.getElem?_append]
    · intro j
      simp only [Option.bind_some]
      split
      · intro e; cases e; assumption
      · simp

theorem previous_spec {c : Cursor α} {ns : List (Nat × α)} {k : Option Nat} (h : CRep c ns k) :
    ∃ c', c.previous = some c' ∧ c'.list = c.list ∧
      CRep c' ns (k.bind fun i => if i = 0 then none else some (i - 1)) := by
  cases k with
  | none =>
    refine ⟨c, ?_, rfl, h⟩
    simp [Cursor.previous, crep_none h]
  | some i =>
    obtain ⟨L, a, x, R, rfl, hL, hc, hm⟩ := crep_cell h
    refine ⟨{ c with current := lastAddr L none }, by simp [Cursor.previous, hc, hm], rfl, h.rep, ?_, ?_⟩
    · simp only [Option.bind_some]
      rcases eq_nil_or_concat' L with rfl | ⟨t, b, y, rfl⟩
      · simp at hL; simp [← hL, addrAt]
      · rw [if_neg (by simp at hL; omega)]
        have : i - 1 = t.length := by simp at hL; omega
        simp [addrAt, this, lastAddr_concat]
    · intro j
      simp only [Option.bind_some]
      have := h.inside i rfl
      split
      · simp
      · intro e; cases e; omega

theorem hasNext_spec {c : Cursor α} {ns : List (Nat × α)} {k : Option Nat} (h : CRep c ns k) :
    c.hasNext = some (match (generalizing := false) k with | none => false | some i => decide (i + 1 < ns.length)) := by
  cases k with
  | none => simp [Cursor.hasNext, crep_none h]
  | some i =>
    obtain ⟨L, a, x, R, rfl, hL, hc, hm⟩ := crep_cell h
    simp only [Cursor.hasNext, hc, hm, Option.bind_eq_bind, Option.bind_some]
    cases R with
    | nil => simp [hL]
    | cons d R =>
      have : i + 1 < (L ++ (a, x) :: d :: R).length := by simp; omega
      rw [decide_eq_true this]
      rfl

theorem hasPrevious_spec {c : Cursor α} {ns : List (Nat × α)} {k : Option Nat} (h : CRep c ns k) :
    c.hasPrevious = some (match (generalizing := false) k with | none => false | some i => decide (0 < i)) := by
  cases k with
  | none => simp [Cursor.hasPrevious, crep_none h]
  | some i =>
    obtain ⟨L, a, x, R, rfl, hL, hc, hm⟩ := crep_cell h
    simp only [Cursor.hasPrevious, hc, hm, Option.bind_eq_bind, Option.bind_some]
    rcases eq_nil_or_concat' L with rfl | ⟨t, b, y, rfl⟩
    · simp at hL; simp [← hL]
    · have : 0 < i := by simp at hL; omega
      rw [decide_eq_true this, lastAddr_concat]
      rfl

theorem hasItem_spec {c : Cursor α} {ns : List (Nat × α)} {k : Option Nat} (h : CRep c ns k) :
    c.hasItem = k.isSome := by
  cases k with
  | none => simp [Cursor.hasItem, crep_none h]
  | some i =>
    obtain ⟨L, a, x, R, rfl, hL, hc, hm⟩ := crep_cell h
    simp [Cursor.hasItem, hc]

theorem get_spec {c : Cursor α} {ns : List (Nat × α)} {k : Option Nat} (h : CRep c ns k) :
    c.get = some (k.bind fun i => (ns.map Prod.snd)[i]?) := by
  cases k with
  | none => simp [Cursor.get, crep_none h]
  | some i =>
    obtain ⟨L, a, x, R, rfl, hL, hc, hm⟩ := crep_cell h
    simp [Cursor.get, hc, hm, ← hL]

theorem cursorRemove_spec {c : Cursor α} {ns : List (Nat × α)} {k : Option Nat} (h : CRep c ns k) (d : Bool) :
    ∃ c' ns', c.remove d = some c' ∧
      ns'.map Prod.snd = (match (generalizing := false) k with | none => ns.map Prod.snd | some i => (ns.map Prod.snd).eraseIdx i) ∧
      Removed c.list c'.list ns' d (k.bind fun i => (ns.map Prod.snd)[i]?) ∧
      CRep c' ns' (k.bind fun i =>
        if i + 1 < ns.length then some i else if i = 0 then none else some (i - 1)) := by
  cases k with
  | none =>
    refine ⟨c, ns, by simp [Cursor.remove, crep_none h], rfl, Removed.none h.rep d, h⟩
  | some i =>
    obtain ⟨L, a, x, R, rfl, hL, hc, hm⟩ := crep_cell h
    obtain ⟨l', h1, h2⟩ := removeNode_removed h.rep d
    refine ⟨⟨l', match headAddr R none with | some y => some y | none => lastAddr L none⟩, L ++ R, ?_, ?_, ?_, ?_⟩
    · simp only [Cursor.remove, hc, hm, h1, Option.bind_eq_bind, Option.bind_some]
      cases headAddr R none <;> rfl
    · simp [← hL, List.eraseIdx_append_of_length_le]
    · simpa [← hL] using h2
    · refine ⟨h2.rep, ?_, ?_⟩
      · simp only [Option.bind_some]
        cases R with
        | cons e R =>
          rw [if_pos (by simp; omega)]
          simp [addrAt, ← hL, headAddr]
        | nil =>
          rw [if_neg (by simp; omega)]
          rcases eq_nil_or_concat' L with rfl | ⟨t, b, y, rfl⟩
          · simp at hL; simp [← hL, addrAt]
          · have hi : i - 1 = t.length := by simp at hL; omega
            rw [if_neg (by simp at hL; omega)]
            simp [addrAt, hi, lastAddr_concat]
      · intro j
        simp only [Option.bind_some]
        simp only [List.length_append, List.length_cons]
        split
        · intro e; cases e; omega
        · split
          · simp
          · intro e; cases e; omega

/-! ### exists -/

/-- What `axl_list_internal_lookup` finds once the tail pointer is exhausted. -/
def scanFrom (eq : α → α → Int) (x : α) : List α → Bool
  | [] => false
  | y :: t => if eq y x = 0 then true else if eq y x = 1 then scanFrom eq x t else false

theorem lookupLoop_head {l : AxlList α} (x : α) (B : List (Nat × α)) (p : Option Nat)
    (hs : Seg l.mem p B none) (fuel : Nat) (hf : B.length < fuel) :
    ∃ r, lookupLoop l x fuel (headAddr B none) none = some r ∧
      r.isSome = scanFrom l.areEqual x (B.map Prod.snd) := by
  induction B generalizing p fuel with
  | nil =>
    cases fuel with
    | zero => omega
    | succ f => exact ⟨none, by simp [lookupLoop], rfl⟩
  | cons c t ih =>
    obtain ⟨a, y⟩ := c
    cases fuel with
    | zero => omega
    | succ f =>
      obtain ⟨h1, h2⟩ := hs
      obtain ⟨r, g1, g2⟩ := ih (some a) h2 f (by simp at hf; omega)
      simp only [headAddr_cons, lookupLoop, h1, Option.bind_eq_bind, Option.bind_some, List.map_cons,
        scanFrom, Option.isNone_some, Bool.false_and]
      by_cases e0 : l.areEqual y x = 0
      · exact ⟨some a, by simp [e0], by simp [e0]⟩
      · by_cases e1 : l.areEqual y x = 1
        · exact ⟨r, by simp [e1, g1], by simp [e1, g2]⟩
        · exact ⟨none, by simp [e0, e1], by simp [e0, e1]⟩

/-- The answer of `axl_list_exists` on the sequence of elements: first element, then last element,
then (only when the last answered -1) the others from the second on. -/
def existsAnswer (eq : α → α → Int) (x : α) : List α → Bool
  | [] => false
  | y :: t =>
    if eq y x = 0 then true
    else if eq y x = 1 then
      if eq ((y :: t).getLast (by simp)) x = -1 then scanFrom eq x t
      else if eq ((y :: t).getLast (by simp)) x = 0 then true
      else false
    else false

theorem exists_spec {l : AxlList α} {ns : List (Nat × α)} (h : Rep l ns) (x : α) :
    l.exists_ x = some (existsAnswer l.areEqual x (ns.map Prod.snd)) := by
  unfold exists_
  rw [h.first, h.last]
  cases ns with
  | nil => simp [lookupLoop, existsAnswer]
  | cons c t =>
    obtain ⟨a, y⟩ := c
    obtain ⟨L, b, w, hL⟩ : ∃ L b w, (a, y) :: t = L ++ [(b, w)] := by
      rcases eq_nil_or_concat' ((a, y) :: t) with h | h
      · simp at h
      · exact h
    have h1 := h.seg.1
    have h2 := h.seg.2
    have hb : l.mem b = some ⟨lastAddr L none, none, w⟩ := by
      have := h.seg; rw [hL] at this; exact seg_mid this
    have hlen : t.length < l.brk := by
      have := fuel_ok h; simp at this; omega
    obtain ⟨r, g1, g2⟩ := lookupLoop_head (l := l) x t (some a) h2 l.brk hlen
    have hlast : (y :: t.map Prod.snd).getLast (by simp) = w := by
      have : y :: t.map Prod.snd = L.map Prod.snd ++ [w] := by
        have := congrArg (List.map Prod.snd) hL
        simpa using this
      simp [this]
    have hla : lastAddr ((a, y) :: t) none = some b := by rw [hL, lastAddr_concat]
    rw [hla]
    simp only [headAddr_cons, lookupLoop, h1, hb, Option.bind_eq_bind, Option.bind_some, List.map_cons,
      existsAnswer, Option.isNone_some, Bool.false_and, hlast]
    by_cases e0 : l.areEqual y x = 0
    · simp [e0]
    · by_cases e1 : l.areEqual y x = 1
      · by_cases f1 : l.areEqual w x = -1
        · simp [e1, f1, g1, g2]
        · by_cases f0 : l.areEqual w x = 0
          · simp [e1, f0]
          · simp [e1, f0, f1]
      · simp [e0, e1]

end AxlList
end Axl
