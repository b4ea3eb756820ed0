/-
Invariants of axlFactory and axlStrFactory.
-/
import Verif.Model.Factory
import Verif.Spec.Factory

namespace Axl
open Spec.Alloc
namespace Factory

/-- Calls on a factory: ask for a piece, or give back the `i`-th piece in use. -/
inductive Op where
  | get
  | giveBack (i : Nat)

/-- Issue a call; the list holds the pieces in use, oldest first. -/
def exec (st : Factory × List Piece) : Op → Option (Factory × List Piece)
  | .get => do
    let (p, f) ← st.1.get
    some (f, st.2 ++ [p])
  | .giveBack i =>
    match st.2[i]? with
    | none => some st
    | some p => do
      let f ← st.1.release p
      some (f, st.2.eraseIdx i)

/-- A sequence of calls. -/
def run (st : Factory × List Piece) : List Op → Option (Factory × List Piece)
  | [] => some st
  | op :: ops => do let st ← exec st op; run st ops

/-- A piece handed out at some time: aligned, inside its block, and below the counter in the
current block. -/
def Good (f : Factory) (p : Piece) : Prop :=
  ∃ k cap, p.offset = k * f.typeSize ∧ f.blocks[p.block]? = some cap ∧ p.offset + f.typeSize ≤ cap ∧
    (p.block = f.blocks.length - 1 → k < f.count)

/-- Invariant: `live` are the pieces in use, `sp` the pieces kept as spares. -/
structure Inv (f : Factory) (live sp : List Piece) : Prop where
  ts : 0 < f.typeSize ∧ f.typeSize ≤ 512
  step : f.step = 256 / f.typeSize ∨ 1 ≤ f.step
  count : f.count ≤ f.step
  ne : f.blocks ≠ []
  last : f.blocks[f.blocks.length - 1]? = some (f.step * f.typeSize)
  nodup : (live ++ sp).Nodup
  good : ∀ p ∈ live ++ sp, Good f p
  next : f.spareNext = sp.length - 1 ∨ (f.spareMax = 0 ∧ sp = [])
  max : (f.spareMax = 0 ∧ sp = []) ∨ (f.spareMax > 0 ∧ f.spareMax = f.spares.length - 1)
  le : f.spareMax = 0 ∨ f.spareNext ≤ f.spareMax
  spares : f.spareMax = 0 ∨ f.spares.take sp.length = sp.map some

theorem div_pos_of {a t : Nat} (h1 : 0 < t) (h2 : t ≤ a) : 1 ≤ a / t := (Nat.le_div_iff_mul_le h1).2 (by omega)

theorem inv_create (ts : Nat) (h : 0 < ts ∧ ts ≤ 512) : ∃ f, create ts = some f ∧ Inv f [] [] ∧ f.typeSize = ts := by
  refine ⟨_, by simp [create, show ts ≠ 0 by omega]; rfl, ?_, rfl⟩
  constructor <;> simp_all

theorem nextStep_pos {f : Factory} {live sp : List Piece} (h : Inv f live sp) : 1 ≤ f.nextStep := by
  have h1 := h.ts.1; have h2 := h.ts.2
  unfold nextStep
  split
  · exact div_pos_of h1 (by omega)
  · split
    · exact div_pos_of h1 (by omega)
    · split
      · exact div_pos_of h1 (by omega)
      · rcases h.step with h | h
        · contradiction
        · exact h

theorem get_spec {f : Factory} {live sp : List Piece} (h : Inv f live sp) :
    ∃ p f' sp', f.get = some (p, f') ∧ Inv f' (live ++ [p]) sp' ∧ f'.typeSize = f.typeSize := by
  unfold get
  by_cases hs : f.spareMax > 0 ∧ f.spareNext ≥ 0
  · rw [if_pos hs]
    have hn : f.spareNext = sp.length - 1 := by rcases h.next with h | h <;> omega
    have hsp : f.spares.take sp.length = sp.map some := by
      rcases h.spares with h | h
      · omega
      · exact h
    rcases List.eq_nil_or_concat sp with rfl | ⟨t, p, rfl⟩
    · simp at hn; omega
    · simp only [List.concat_eq_append, List.length_append, List.length_singleton] at hn hsp
      have hi : f.spareNext.toNat = t.length := by omega
      have hr : f.spares[t.length]? = some (some p) := by
        have : (f.spares.take (t.length + 1))[t.length]? = f.spares[t.length]? :=
          List.getElem?_take_of_lt (by omega)
        rw [← this, hsp]; simp
      refine ⟨p, { f with spareNext := f.spareNext - 1 }, t, by simp [hi, hr], ?_, rfl⟩
      have hperm : (live ++ [p] ++ t).Perm (live ++ t.concat p) := by
        simp only [List.concat_eq_append, List.append_assoc]
        exact List.Perm.append_left _ (List.perm_append_comm)
      refine ⟨h.ts, h.step, h.count, h.ne, h.last, hperm.nodup_iff.2 h.nodup, ?_, ?_, ?_, ?_, ?_⟩
      · intro q hq
        exact h.good q (hperm.mem_iff.1 hq)
      · left; simp only []; omega
      · rcases h.max with h | h
        · omega
        · exact Or.inr h
      · right
        rcases h.le with h | h
        · omega
        · simp only []; omega
      · right
        have : f.spares.take t.length = (f.spares.take (t.length + 1)).take t.length := by
          rw [List.take_take]; congr 1; omega
        simp only []
        rw [this, hsp]; simp
  · rw [if_neg hs]
    simp only []
    have ht := h.ts.1
    have hlen : 0 < f.blocks.length := List.length_pos_iff.2 h.ne
    by_cases hc : f.count + 1 > f.step
    · rw [if_pos hc]
      have hstep := nextStep_pos h
      have hns : ({ f with count := f.count + 1 } : Factory).nextStep = f.nextStep := rfl
      have hg : ∀ q ∈ live ++ sp, Good { f with
          step := f.nextStep, count := 1, blocks := f.blocks ++ [f.nextStep * f.typeSize] } q ∧
          q.block < f.blocks.length := by
        intro q hq
        obtain ⟨k, cap, g1, g2, g3, g4⟩ := h.good q hq
        have hlt : q.block < f.blocks.length := (List.getElem?_eq_some_iff.1 g2).1
        refine ⟨⟨k, cap, g1, ?_, g3, ?_⟩, hlt⟩
        · simp only []; rw [List.getElem?_append_left hlt]; exact g2
        · simp only [List.length_append, List.length_singleton]; omega
      refine ⟨_, _, sp, rfl, ?_, rfl⟩
      simp only [hns]
      have hnew : (⟨f.blocks.length, 0⟩ : Piece) ∉ live ++ sp := by
        intro hm
        have := (hg _ hm).2
        simp at this
      have hperm : (live ++ [(⟨f.blocks.length, 0⟩ : Piece)] ++ sp).Perm (⟨f.blocks.length, 0⟩ :: (live ++ sp)) := by
        simp only [List.append_assoc, List.singleton_append]
        exact List.perm_middle
      have e : (⟨(f.blocks ++ [f.nextStep * f.typeSize]).length - 1, (1 - 1) * f.typeSize⟩ : Piece)
          = ⟨f.blocks.length, 0⟩ := by simp
      rw [e]
      refine ⟨h.ts, Or.inr hstep, hstep, by simp, by simp, ?_, ?_, h.next, h.max, h.le, h.spares⟩
      · exact hperm.nodup_iff.2 (List.nodup_cons.2 ⟨hnew, h.nodup⟩)
      · intro q hq
        rcases List.mem_cons.1 (hperm.mem_iff.1 hq) with rfl | hq
        · refine ⟨0, f.nextStep * f.typeSize, by simp, by simp, ?_, by simp⟩
          simp only []
          have := Nat.mul_le_mul_right f.typeSize hstep
          omega
        · exact (hg q hq).1
    · rw [if_neg hc]
      have hg : ∀ q ∈ live ++ sp, Good { f with count := f.count + 1 } q ∧
          q ≠ ⟨f.blocks.length - 1, f.count * f.typeSize⟩ := by
        intro q hq
        obtain ⟨k, cap, g1, g2, g3, g4⟩ := h.good q hq
        refine ⟨⟨k, cap, g1, g2, g3, fun e => ?_⟩, ?_⟩
        · have := g4 e; simp only []; omega
        · intro e
          subst e
          have := g4 rfl
          simp only [] at g1
          have := Nat.eq_of_mul_eq_mul_right ht g1
          omega
      refine ⟨_, _, sp, rfl, ?_, rfl⟩
      have e : (⟨f.blocks.length - 1, (f.count + 1 - 1) * f.typeSize⟩ : Piece)
          = ⟨f.blocks.length - 1, f.count * f.typeSize⟩ := by simp
      simp only []
      rw [e]
      have hperm : (live ++ [(⟨f.blocks.length - 1, f.count * f.typeSize⟩ : Piece)] ++ sp).Perm
          (⟨f.blocks.length - 1, f.count * f.typeSize⟩ :: (live ++ sp)) := by
        simp only [List.append_assoc, List.singleton_append]
        exact List.perm_middle
      refine ⟨h.ts, h.step, by simp only []; omega, h.ne, h.last, ?_, ?_, h.next, h.max, h.le, h.spares⟩
      · refine hperm.nodup_iff.2 (List.nodup_cons.2 ⟨?_, h.nodup⟩)
        intro hm
        exact (hg _ hm).2 rfl
      · intro q hq
        rcases List.mem_cons.1 (hperm.mem_iff.1 hq) with rfl | hq
        · refine ⟨f.count, f.step * f.typeSize, rfl, h.last, ?_, fun _ => by simp⟩
          simp only []
          have := Nat.mul_le_mul_right f.typeSize (show f.count + 1 ≤ f.step by omega)
          rw [Nat.add_mul] at this
          omega
        · exact (hg q hq).1

theorem release_spec {f : Factory} {live sp : List Piece} {i : Nat} {p : Piece} (h : Inv f live sp)
    (hi : live[i]? = some p) :
    ∃ f' sp', f.release p = some f' ∧ Inv f' (live.eraseIdx i) sp' ∧ f'.typeSize = f.typeSize := by
  have hperm : (live.eraseIdx i ++ (sp ++ [p])).Perm (live ++ sp) := by
    have h1 : live.Perm (p :: live.eraseIdx i) := by
      clear h
      induction live generalizing i with
      | nil => simp at hi
      | cons a t ih =>
        cases i with
        | zero => simp at hi; simp [hi]
        | succ k =>
          simp at hi
          exact (List.Perm.cons a (ih hi)).trans (List.Perm.swap p a _)
    refine List.Perm.trans ?_ (List.Perm.append_right sp h1.symm)
    rw [← List.append_assoc]
    exact (List.perm_append_comm).trans (by simp)
  have hnd := hperm.nodup_iff.2 h.nodup
  have hgd : ∀ q ∈ live.eraseIdx i ++ (sp ++ [p]), Good f q := fun q hq => h.good q (hperm.mem_iff.1 hq)
  unfold release
  by_cases h0 : f.spareMax = 0
  · rw [if_pos h0]
    have hsp : sp = [] := by
      rcases h.max with h | h
      · exact h.2
      · omega
    subst hsp
    refine ⟨{ f with
        spareMax := 9, spareNext := 0
        spares := [some p, none, none, none, none, none, none, none, none, none] },
      [p], by simp [writeSpare], ⟨h.ts, h.step, h.count, h.ne, h.last, hnd, hgd, ?_, ?_, ?_, ?_⟩, rfl⟩ <;>
      simp
  · rw [if_neg h0]
    have hn : f.spareNext = sp.length - 1 := by rcases h.next with h | h <;> omega
    have hmax : f.spareMax > 0 ∧ f.spareMax = f.spares.length - 1 := by rcases h.max with h | h <;> omega
    have hle : f.spareNext ≤ f.spareMax := by rcases h.le with h | h <;> omega
    have hsp : f.spares.take sp.length = sp.map some := by
      rcases h.spares with h | h
      · omega
      · exact h
    by_cases h1 : f.spareMax > f.spareNext
    · rw [if_pos h1]
      have e : (if f.spareNext = -1 then 0 else f.spareNext + 1) = (sp.length : Int) := by split <;> omega
      rw [e]
      have hlt : sp.length < f.spares.length := by omega
      refine ⟨{ f with spareNext := sp.length, spares := f.spares.set sp.length (some p) }, sp ++ [p], ?_,
        ⟨h.ts, h.step, h.count, h.ne, h.last, hnd, hgd, ?_, ?_, ?_, ?_⟩, rfl⟩
      · simp [writeSpare, hlt]
      · left; simp
      · right; simp only [List.length_set]; omega
      · right; simp only []; omega
      · right
        simp only [List.length_append, List.length_singleton, List.map_append, List.map_cons, List.map_nil]
        rw [List.take_succ_eq_append_getElem (by simpa using hlt)]
        simp [List.take_set_of_le, hsp]
    · rw [if_neg h1]
      simp only []
      have e1 : f.spareNext + 1 = (sp.length : Int) := by omega
      have e2 : (f.spareMax + 10).toNat = sp.length + 9 := by omega
      have e3 : f.spares.length = sp.length := by omega
      have e4 : f.spares = sp.map some := by
        rw [← hsp, ← e3, List.take_of_length_le (Nat.le_refl _)]
      refine ⟨{ f with
          spareNext := sp.length, spareMax := f.spareMax + 9
          spares := (sp.map some ++ List.replicate 9 none).set sp.length (some p) }, sp ++ [p], ?_,
        ⟨h.ts, h.step, h.count, h.ne, h.last, hnd, hgd, ?_, ?_, ?_, ?_⟩, rfl⟩
      · have e5 : (f.spares.take (f.spareMax + 10).toNat ++
            List.replicate ((f.spareMax + 10).toNat - f.spares.length) none)
            = (sp.map some ++ List.replicate 9 none : List (Option Piece)) := by
          rw [e2, e3, e4, List.take_of_length_le (by simp)]
          congr 2
          omega
        rw [e5, e1]
        simp [writeSpare]
        omega
      · left; simp
      · right; simp; omega
      · right; simp only []; omega
      · right
        simp only [List.length_append, List.length_singleton, List.map_append, List.map_cons, List.map_nil]
        rw [List.take_succ_eq_append_getElem (by simp)]
        simp [List.take_set_of_le]

theorem run_spec (ops : List Op) {f : Factory} {live sp : List Piece} (h : Inv f live sp) :
    ∃ f' live' sp', run (f, live) ops = some (f', live') ∧ Inv f' live' sp' ∧ f'.typeSize = f.typeSize := by
  induction ops generalizing f live sp with
  | nil => exact ⟨f, live, sp, rfl, h, rfl⟩
  | cons op ops ih =>
    have : ∃ f1 live1 sp1, exec (f, live) op = some (f1, live1) ∧ Inv f1 live1 sp1 ∧ f1.typeSize = f.typeSize := by
      cases op with
      | get =>
        obtain ⟨p, f', sp', h1, h2, h3⟩ := get_spec h
        exact ⟨f', live ++ [p], sp', by simp [exec, h1], h2, h3⟩
      | giveBack i =>
        cases hi : live[i]? with
        | none => exact ⟨f, live, sp, by simp [exec, hi], h, rfl⟩
        | some p =>
          obtain ⟨f', sp', h1, h2, h3⟩ := release_spec h hi
          exact ⟨f', _, sp', by simp [exec, hi, h1], h2, h3⟩
    obtain ⟨f1, live1, sp1, h1, h2, h3⟩ := this
    obtain ⟨f2, live2, sp2, g1, g2, g3⟩ := ih h2
    exact ⟨f2, live2, sp2, by simp [run, h1, g1], g2, g3.trans h3⟩

theorem inv_inside {f : Factory} {live sp : List Piece} (h : Inv f live sp) {p : Piece} (hp : p ∈ live) :
    Region.inside f.blocks ⟨p.block, p.offset, f.typeSize⟩ := by
  obtain ⟨k, cap, g1, g2, g3, g4⟩ := h.good p (by simp [hp])
  exact ⟨cap, g2, g3⟩

theorem inv_disjoint {f : Factory} {live sp : List Piece} (h : Inv f live sp) :
    live.Pairwise (fun p q => Region.disjoint ⟨p.block, p.offset, f.typeSize⟩ ⟨q.block, q.offset, f.typeSize⟩) := by
  have hnd : live.Nodup := (List.nodup_append.1 h.nodup).1
  refine List.Pairwise.imp_of_mem ?_ hnd
  intro p q hp hq hne
  obtain ⟨k, _, g1, _⟩ := h.good p (by simp [hp])
  obtain ⟨k', _, g1', _⟩ := h.good q (by simp [hq])
  simp only [Region.disjoint]
  by_cases hb : p.block = q.block
  · right
    have hk : k ≠ k' := by
      intro e
      apply hne
      cases p; cases q
      simp only [Piece.mk.injEq]
      simp only [] at hb g1 g1'
      exact ⟨hb, by rw [g1, g1', e]⟩
    rw [g1, g1']
    rcases Nat.lt_or_gt_of_ne hk with hlt | hlt
    · left
      have := Nat.mul_le_mul_right f.typeSize (show k + 1 ≤ k' from hlt)
      rw [Nat.add_mul] at this
      omega
    · right
      have := Nat.mul_le_mul_right f.typeSize (show k' + 1 ≤ k from hlt)
      rw [Nat.add_mul] at this
      omega
  · exact Or.inl hb

end Factory

namespace StrFactory

/-- Ask for buffers of these sizes, one after the other. -/
def run : StrFactory → List Nat → Option (StrFactory × List Region)
  | f, [] => some (f, [])
  | f, n :: ns => do
    let (p, f) ← f.alloc n
    let (f, rs) ← run f ns
    some (f, ⟨p.block, p.offset, n + 1⟩ :: rs)

/-- Invariant: the regions handed out lie inside their blocks, and in the current block below the
index. -/
structure Inv (f : StrFactory) (rs : List Region) : Prop where
  step : f.step = 1024
  index : 0 ≤ f.index
  ne : 0 < f.blocks.length
  cap : ∃ cap, f.blocks[f.blocks.length - 1]? = some cap ∧ f.size ≤ cap ∧ f.index ≤ cap
  inside : ∀ r ∈ rs, Region.inside f.blocks r
  below : ∀ r ∈ rs, r.block = f.blocks.length - 1 → (r.offset + r.size : Int) ≤ f.index
  disj : rs.Pairwise Region.disjoint

theorem inv_create : Inv create [] := by
  constructor <;> simp [create]

theorem ensure_spec {f : StrFactory} {rs : List Region} (h : Inv f rs) (n : Nat) :
    Inv (f.ensure n) rs ∧ ∃ cap, (f.ensure n).blocks[(f.ensure n).blocks.length - 1]? = some cap ∧
      (f.ensure n).index + n < cap := by
  have hs := h.step
  have hi := h.index
  obtain ⟨cap, c1, c2, c3⟩ := h.cap
  have newBlock : ∀ (c : Nat) (sz : Int), sz ≤ c →
      Inv { f with size := sz, blocks := f.blocks ++ [c], index := 0 } rs := by
    intro c sz hsz
    refine ⟨hs, by simp, by simp, ⟨c, by simp, hsz, by simp⟩, ?_, ?_, h.disj⟩
    · intro r hr
      obtain ⟨cap, g1, g2⟩ := h.inside r hr
      refine ⟨cap, ?_, g2⟩
      simp only []
      rw [List.getElem?_append_left (List.getElem?_eq_some_iff.1 g1).1]; exact g1
    · intro r hr e
      obtain ⟨cap, g1, g2⟩ := h.inside r hr
      have := (List.getElem?_eq_some_iff.1 g1).1
      simp only [List.length_append, List.length_singleton] at e
      omega
  unfold ensure
  split
  · split
    · refine ⟨newBlock (n + 1) (n + 1) (by omega), n + 1, by simp, by simp; omega⟩
    · simp only [hs] at newBlock ⊢
      split
      · refine ⟨newBlock ((n : Int) + 1).toNat n (by omega), ((n : Int) + 1).toNat, by simp, by simp; omega⟩
      · refine ⟨newBlock ((1024 : Int) + 1).toNat 1024 (by omega), ((1024 : Int) + 1).toNat, by simp, by simp; omega⟩
  · exact ⟨h, cap, c1, by omega⟩

theorem alloc_spec {f : StrFactory} {rs : List Region} (h : Inv f rs) (n : Nat) :
    ∃ p f', f.alloc n = some (p, f') ∧ Inv f' (rs ++ [⟨p.block, p.offset, n + 1⟩]) := by
  obtain ⟨h1, cap, c1, c2⟩ := ensure_spec h n
  unfold alloc
  generalize f.ensure n = g at h1 c1 c2
  have hi := h1.index
  refine ⟨⟨g.blocks.length - 1, g.index.toNat⟩, { g with index := g.index + n + 1 }, ?_, ?_⟩
  · simp [c1, hi, c2]
  · obtain ⟨cap', d1, d2, d3⟩ := h1.cap
    rw [c1] at d1; cases d1
    refine ⟨h1.step, by simp only []; omega, h1.ne, ⟨cap, c1, d2, by simp only []; omega⟩, ?_, ?_, ?_⟩
    · intro r hr
      rcases List.mem_append.1 hr with hr | hr
      · exact h1.inside r hr
      · simp only [List.mem_singleton] at hr
        subst hr
        exact ⟨cap, c1, by simp only []; omega⟩
    · intro r hr e
      rcases List.mem_append.1 hr with hr | hr
      · have := h1.below r hr e
        simp only []; omega
      · simp only [List.mem_singleton] at hr
        subst hr
        simp only []; omega
    · rw [List.pairwise_append]
      refine ⟨h1.disj, by simp, ?_⟩
      intro a ha b hb
      simp only [List.mem_singleton] at hb
      subst hb
      by_cases e : a.block = g.blocks.length - 1
      · right; left
        have := h1.below a ha e
        simp only []; omega
      · exact Or.inl e

theorem run_spec (ns : List Nat) {f : StrFactory} {rs : List Region} (h : Inv f rs) :
    ∃ f' rs', f.run ns = some (f', rs') ∧ Inv f' (rs ++ rs') ∧ rs'.map Region.size = ns.map (· + 1) := by
  induction ns generalizing f rs with
  | nil => exact ⟨f, [], rfl, by simpa using h, rfl⟩
  | cons n ns ih =>
    obtain ⟨p, f1, h1, h2⟩ := alloc_spec h n
    obtain ⟨f2, rs2, g1, g2, g3⟩ := ih h2
    exact ⟨f2, ⟨p.block, p.offset, n + 1⟩ :: rs2, by simp [run, h1, g1], by simpa using g2, by simp [g3]⟩

end StrFactory
end Axl
