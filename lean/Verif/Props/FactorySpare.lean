/-
C14: how many pieces that were given back a factory keeps.
-/
import Verif.Model.FactorySpare
import Verif.Spec.FactorySpare

namespace Axl.Factory

/-- The state of a factory agrees with the books. -/
def Agrees (st : Factory × List Piece) (b : Books) : Prop :=
  st.2.length = b.inUse ∧
    if b.given = true then 0 < st.1.spareMax ∧ st.1.spareNext + 1 = b.kept ∧ (b.kept : Int) ≤ st.1.spareMax + 1
    else b.kept = 0 ∧ st.1.spareNext = 0 ∧ st.1.spareMax = 0

theorem writeSpare_same {f f' : Factory} {p : Piece} (h : f.writeSpare p = some f') :
    f'.spareMax = f.spareMax ∧ f'.spareNext = f.spareNext := by
  unfold writeSpare at h
  split at h
  · cases h; exact ⟨rfl, rfl⟩
  · cases h

theorem exec_agrees {st st' : Factory × List Piece} {b : Books} {op : Op} (h : Agrees st b) (he : exec st op = some st') :
    Agrees st' (b.after op) := by
  obtain ⟨f, live⟩ := st
  obtain ⟨u, k, g⟩ := b
  obtain ⟨h1, h2⟩ := h
  simp only at h1 h2
  cases op with
  | get =>
    simp only [exec, Option.bind_eq_bind, Option.bind_eq_some_iff] at he
    obtain ⟨⟨p, f1⟩, hg, he⟩ := he
    cases he
    refine ⟨by simp [Books.after, h1], ?_⟩
    simp only [Books.after]
    simp only [get] at hg
    split at hg
    · rename_i hs
      simp only [Option.bind_eq_bind, Option.bind_eq_some_iff] at hg
      obtain ⟨q, -, hg⟩ := hg
      cases hg
      cases g with
      | true => simp only [if_true] at h2 ⊢; omega
      | false => simp at h2; omega
    · rename_i hs
      have e : f1.spareMax = f.spareMax ∧ f1.spareNext = f.spareNext := by
        cases hg
        split <;> exact ⟨rfl, rfl⟩
      rw [e.1, e.2]
      cases g with
      | true => simp only [if_true] at h2 ⊢; omega
      | false => simp at h2 ⊢; omega
  | giveBack i =>
    simp only [exec] at he
    split at he
    · rename_i hi
      cases he
      rw [List.getElem?_eq_none_iff] at hi
      have : ¬ i < u := by omega
      simp only [Books.after, this, if_false]
      exact ⟨h1, h2⟩
    · rename_i p hi
      obtain ⟨hlt, -⟩ := List.getElem?_eq_some_iff.1 hi
      simp only [Option.bind_eq_bind, Option.bind_eq_some_iff] at he
      obtain ⟨f1, hr, he⟩ := he
      cases he
      have : i < u := by omega
      simp only [Books.after, this, if_true]
      refine ⟨by rw [List.length_eraseIdx, if_pos hlt, h1], ?_⟩
      simp only [if_true]
      unfold release at hr
      split at hr
      · obtain ⟨e1, e2⟩ := writeSpare_same hr
        simp only at e1 e2
        cases g with
        | true => simp only [if_true] at h2; omega
        | false => simp at h2; omega
      · split at hr
        · obtain ⟨e1, e2⟩ := writeSpare_same hr
          simp only at e1 e2
          cases g with
          | true => simp only [if_true] at h2; split at e2 <;> omega
          | false => simp at h2; omega
        · obtain ⟨e1, e2⟩ := writeSpare_same hr
          simp only at e1 e2
          cases g with
          | true => simp only [if_true] at h2; omega
          | false => simp at h2; omega

theorem run_agrees : ∀ (ops : List Op) {st st' : Factory × List Piece} {b : Books}, Agrees st b → run st ops = some st' →
    Agrees st' (ops.foldl Books.after b)
  | [], _, _, _, h, hr => by cases hr; exact h
  | op :: ops, st, st', b, h, hr => by
    simp only [run, Option.bind_eq_bind, Option.bind_eq_some_iff] at hr
    obtain ⟨st1, h1, h2⟩ := hr
    exact run_agrees ops (exec_agrees h h1) h2

end Axl.Factory

namespace Axl
open Factory

/-- **C14**.  After any history in which a piece was given back, the index answered plus one is the number of pieces kept,
and there is room for them. -/
theorem C14_spares (ts : Nat) (h : 0 < ts ∧ ts ≤ 512) (ops : List Factory.Op) (hg : (books ops).given = true) :
    ∃ f0 f live, Factory.create ts = some f0 ∧ Factory.run (f0, []) ops = some (f, live) ∧ live.length = (books ops).inUse ∧
      askSpareNext (some f) + 1 = (books ops).kept ∧ ((books ops).kept : Int) ≤ askSpareMax (some f) + 1 := by
  obtain ⟨f0, h1, h2, -⟩ := Factory.inv_create ts h
  obtain ⟨f, live, sp, g1, -, -⟩ := Factory.run_spec ops h2
  have ha : Agrees (f0, []) ⟨0, 0, false⟩ := by
    unfold Factory.create at h1
    split at h1
    · cases h1
    · cases h1; exact ⟨rfl, by simp⟩
  obtain ⟨a1, a2⟩ := run_agrees ops ha g1
  rw [show ops.foldl Books.after ⟨0, 0, false⟩ = books ops from rfl, hg, if_pos rfl] at a2
  exact ⟨f0, f, live, h1, g1, a1, a2.2⟩

example : books [.get, .get, .giveBack 0, .get, .giveBack 7, .giveBack 1, .giveBack 0] = ⟨0, 2, true⟩ := by decide

/-- **C14**: not of the code.  Before a piece is given back the index is 0, as if one piece were kept. -/
theorem C14_no_spares (ts : Nat) (h : 0 < ts ∧ ts ≤ 512) (ops : List Factory.Op) (hg : (books ops).given = false) :
    ∃ f0 f live, Factory.create ts = some f0 ∧ Factory.run (f0, []) ops = some (f, live) ∧ live.length = (books ops).inUse ∧
      (books ops).kept = 0 ∧ askSpareNext (some f) = 0 ∧ askSpareMax (some f) = 0 := by
  obtain ⟨f0, h1, h2, -⟩ := Factory.inv_create ts h
  obtain ⟨f, live, sp, g1, -, -⟩ := Factory.run_spec ops h2
  have ha : Agrees (f0, []) ⟨0, 0, false⟩ := by
    unfold Factory.create at h1
    split at h1
    · cases h1
    · cases h1; exact ⟨rfl, by simp⟩
  obtain ⟨a1, a2⟩ := run_agrees ops ha g1
  rw [show ops.foldl Books.after ⟨0, 0, false⟩ = books ops from rfl, hg, if_neg (by simp)] at a2
  exact ⟨f0, f, live, h1, g1, a1, a2⟩

example : (books [.get, .get, .giveBack 5]).given = false := by decide

end Axl
