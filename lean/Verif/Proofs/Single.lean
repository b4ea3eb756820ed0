/-
Proofs about `axl_babel_single_to_utf8` and the tables.
-/
import Verif.Model.Babel
import Verif.Model.BabelTables
import Verif.Spec.Utf8
import Verif.Spec.Iso8859

namespace Axl
namespace Babel
open Spec

theorem putAll_spec : ∀ (bs output : List UInt8) (i : Nat), i + bs.length ≤ output.length →
    putAll output i bs = some (output.take i ++ bs ++ output.drop (i + bs.length)) := by
  intro bs
  induction bs with
  | nil => intro output i h; simp [putAll]
  | cons b bs ih =>
    intro output i h
    simp only [List.length_cons] at h
    have hi : i < output.length := by omega
    simp only [putAll, put, hi, if_true, Option.bind_some]
    rw [ih _ _ (by simp; omega)]
    congr 1
    apply List.ext_getElem?
    intro n
    simp only [List.getElem?_append, List.getElem?_take, List.getElem?_set, List.getElem?_drop,
      List.length_append, List.length_take, List.length_set, List.length_cons, List.getElem?_cons]
    have e1 : min (i + 1) output.length = i + 1 := by omega
    have e2 : min i output.length = i := by omega
    simp only [e1, e2]
    grind

/-- The bytes that the characters of a source are. -/
def all (table : UInt8 → List UInt8) (source : List UInt8) : List UInt8 := source.flatMap table

/-- What the decoder does with its output memory. -/
structure Fills (table : UInt8 → List UInt8) (source output : List UInt8) (size : Nat) (d : Decoded) : Prop where
  /-- all was converted, or the next character does not fit -/
  done : d.result = 1 ∧ d.converted = (all table source).length ∨
    d.result = 2 ∧ d.remain < source.length ∧ d.converted = (all table (source.take d.remain)).length ∧
      ∀ v ∈ source[d.remain]?, size < d.converted + max 1 (table v).length
  /-- the bytes are in the memory, from its beginning -/
  bytes : d.output.take d.converted = all table (if d.result = 1 then source else source.take d.remain)
  /-- no more than asked for -/
  fits : d.converted ≤ size
  /-- the rest of the memory is not touched -/
  rest : d.output.drop size = output.drop size
  length : d.output.length = output.length

theorem singleLoop_spec (table : UInt8 → List UInt8) (size : Nat) (output0 : List UInt8)
    (hsize : size ≤ output0.length) :
    ∀ (source before : List UInt8) (output : List UInt8),
      output.length = output0.length → (all table before).length ≤ size →
      output.take (all table before).length = all table before →
      output.drop size = output0.drop size →
      ∃ d, singleLoop table size source before.length (all table before).length output = some d ∧
        Fills table (before ++ source) output0 size d := by
  intro source
  induction source with
  | nil =>
    intro before output hl hle ht hd
    refine ⟨_, rfl, ?_⟩
    exact ⟨.inl ⟨rfl, by simp⟩, by simpa using ht, hle, hd, hl⟩
  | cons v source ih =>
    intro before output hl hle ht hd
    have stop : ∀ h : size < (all table before).length + max 1 (table v).length,
        Fills table (before ++ v :: source) output0 size ⟨2, output, (all table before).length, before.length⟩ := by
      intro h
      refine ⟨.inr ⟨rfl, by simp, by simp, ?_⟩, by simpa using ht, hle, hd, hl⟩
      intro w hw
      simp at hw
      subst hw
      exact h
    rw [singleLoop]
    split
    · split
      · exact ⟨_, rfl, stop (by omega)⟩
      · rename_i h1 h2
        rw [putAll_spec _ _ _ (by omega)]
        simp only [Option.bind_some]
        have e : before.length + 1 = (before ++ [v]).length := by simp
        have e2 : (all table before).length + (table v).length = (all table (before ++ [v])).length := by
          simp [all]
        rw [e, e2]
        obtain ⟨d, hd1, hd2⟩ := ih (before ++ [v])
          (output.take (all table before).length ++ table v ++
            output.drop ((all table before).length + (table v).length))
          (by simp; omega) (by rw [← e2]; omega)
          (by
            rw [ht, ← e2]
            have : (all table before ++ table v).length = (all table before).length + (table v).length := by simp
            rw [← this, List.take_left' rfl]
            simp [all])
          (by
            rw [← hd, ht]
            have : (all table before ++ table v).length ≤ size := by simp; omega
            rw [List.drop_append, List.drop_of_length_le this, List.nil_append, List.drop_drop]
            congr 1
            simp only [List.length_append] at this ⊢
            omega)
        refine ⟨d, by rw [← e2]; rw [← e2] at hd1; exact hd1, by simpa using hd2⟩
    · exact ⟨_, rfl, stop (by omega)⟩

theorem single_spec (table : UInt8 → List UInt8) (source output : List UInt8) (size : Nat)
    (h : size ≤ output.length) :
    ∃ d, single table source output size = some d ∧ Fills table source output size d := by
  obtain ⟨d, a, b⟩ := singleLoop_spec table size output h source [] output rfl (by simp [all]) (by simp [all]) rfl
  exact ⟨d, a, by simpa using b⟩

/-- All the tables, all their entries. -/
theorem tables_at : ∀ p ∈ Iso8859.parts, ∀ i < 256,
    (tableOf p).map (fun t => entry t (UInt8.ofNat i)) =
      some (String.utf8EncodeChar ((Iso8859.char p (UInt8.ofNat i)).getD (Char.ofNat 0))) := by
  decide +kernel

theorem table_entry {p : Nat} (hp : p ∈ Iso8859.parts) {t : List (List UInt8)} (ht : tableOf p = some t)
    (b : UInt8) : entry t b = String.utf8EncodeChar ((Iso8859.char p b).getD (Char.ofNat 0)) := by
  have := tables_at p hp b.toNat b.toNat_lt
  rw [ht] at this
  simpa using this

theorem table_exists : ∀ p ∈ Iso8859.parts, (tableOf p).isSome := by
  decide +kernel

theorem table_all {p : Nat} (hp : p ∈ Iso8859.parts) {t : List (List UInt8)} (ht : tableOf p = some t)
    (bytes : List UInt8) : all (entry t) bytes = Utf8.encode (Iso8859.text p bytes) := by
  simp only [all, Utf8.encode, Iso8859.text]
  induction bytes with
  | nil => rfl
  | cons b bs ih => simp [table_entry hp ht, ih]

theorem table_size {p : Nat} (hp : p ∈ Iso8859.parts) {t : List (List UInt8)} (ht : tableOf p = some t)
    (b : UInt8) : 1 ≤ (entry t b).length ∧ (entry t b).length ≤ 4 := by
  rw [table_entry hp ht, String.utf8EncodeChar.eq_1]
  repeat' split
  all_goals simp

end Babel
end Axl
