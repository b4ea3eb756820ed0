/-
Proofs about `Verif.Model.Path`.
-/
import Verif.Model.Path
import Verif.Spec.Path
import Verif.Proofs.StrEdit
import Verif.Proofs.TreeNav
import Verif.Proofs.Iterate

namespace Axl.Heap
open Spec.Tree Spec.Tree.Forest Spec.Path

variable {h : Heap} {f : Forest} {ns : Nat → List (Nat × Info)}

theorem path_intercalate (r : List Char) (ps : List (List Char)) :
    path (r :: ps) = List.intercalate ['/'] ([] :: r :: ps) := by
  have : ∀ (ps : List (List Char)) (r : List Char), List.intercalate ['/'] (r :: ps) = r ++ path ps := by
    intro ps
    induction ps with
    | nil => intro r; simp [List.intercalate, path]
    | cons p ps ih =>
      intro r
      have : List.intercalate ['/'] (r :: p :: ps) = r ++ ['/'] ++ List.intercalate ['/'] (p :: ps) := by
        simp [List.intercalate, List.intersperse]
      rw [this, ih]
      simp [path]
  rw [this]
  rfl

theorem split_path (r : List Char) (ps : List (List Char)) (hr : '/' ∉ r) (hps : ∀ p ∈ ps, '/' ∉ p) :
    Str.split (path (r :: ps)) [['/']] = some ([] :: r :: ps) := by
  have hinf : ∀ p : List Char, '/' ∉ p → ¬ ['/'] <:+: p := by
    intro p hp ⟨a, b, e⟩
    exact hp (by rw [← e]; simp)
  obtain ⟨qs, l, hl⟩ : ∃ qs l, [] :: r :: ps = qs ++ [l] :=
    ⟨([] :: r :: ps).dropLast, ([] :: r :: ps).getLast (by simp), (List.dropLast_concat_getLast _).symm⟩
  have hmem : ∀ p ∈ qs ++ [l], '/' ∉ p := by
    rw [← hl]
    intro p hp
    simp only [List.mem_cons] at hp
    rcases hp with rfl | rfl | h
    · simp
    · exact hr
    · exact hps p h
  have h1 := Str.splits_of_intercalate ['/'] (by simp) qs l
    (fun p hp => by simpa using hinf p (hmem p (by simp [hp]))) (hinf l (hmem l (by simp)))
  rw [← hl, ← path_intercalate] at h1
  obtain ⟨zs, g1, g2⟩ := Str.split_spec (path (r :: ps)) [['/']] (by simp [path])
  rw [g1, Str.splits_unique g2 h1]

theorem pathLoop_spec (R : Rep h f ns) (T : Tame f) : ∀ (ps : List (List Char)) (n : Nat), f.live n = true →
    (∀ p ∈ ps, p ≠ [] ∧ p ≠ ['*']) →
    h.pathLoop ps (some n) = some ((follow f n ps).map some) := by
  intro ps
  induction ps with
  | nil => intro n _ _; rfl
  | cons p ps ih =>
    intro n hn hp
    obtain ⟨h1, h2⟩ := hp p (by simp)
    simp only [pathLoop, follow]
    rw [if_neg (by simpa using h1), if_neg (by simp [h2])]
    simp only [childCalled, R.getChildCalled T hn p]
    cases hc : (nodesOf (f.kids n)).find? fun c => f.name c == p with
    | none => rfl
    | some c =>
      simp only [Option.bind_some]
      exact ih c (T.closed n c ⟨hn, mem_nodesOf.mp (List.mem_of_find?_eq_some hc)⟩) (fun q hq => hp q (by simp [hq]))

theorem docGet_spec (R : Rep h f ns) (T : Tame f) {root : Nat} (hl : f.live root = true) (r : List Char)
    (ps : List (List Char)) (hr : '/' ∉ r) (hps : ∀ p ∈ ps, p ≠ [] ∧ '/' ∉ p ∧ p ≠ ['*']) :
    h.docGet (some root) (path (r :: ps)) =
      some (if r = [] ∨ f.name root = r then follow f root ps else none) := by
  have hsplit := split_path r ps hr (fun p hp => (hps p hp).2.1)
  have hroot : h.pathRoot (some root) r = some (decide (r = [] ∨ f.name root = r)) := by
    obtain ⟨hd, h1⟩ := R.nodes root hl
    by_cases h0 : r = []
    · simp [pathRoot, h0]
    · simp only [pathRoot, nodeCmpName, h1, Option.map_some, h0, false_or]
      rw [if_pos (by simpa using h0)]
      congr 1
      by_cases hq : f.name root = r <;> simp [hq]
  have hlist : h.docGetList (some root) (path (r :: ps)) =
      match decide (r = [] ∨ f.name root = r), follow f root ps with
      | true, some n => ((AxlList.new AxlList.alwaysReturn1 false).add (some n)).map some
      | _, _ => some none := by
    have e : path (r :: ps) = '/' :: (r ++ path ps) := by simp [path]
    have : h.docGetList (some root) (path (r :: ps)) =
      match Str.split (path (r :: ps)) [['/']] with
      | none => none
      | some (_ :: p :: rest) =>
        match h.pathRoot (some root) p with
        | none => none
        | some false => some none
        | some true =>
          match h.pathLoop rest (some root) with
          | none => none
          | some none => some none
          | some (some node) => ((AxlList.new AxlList.alwaysReturn1 false).add node).map some
      | some _ => none := by rw [e]; rfl
    rw [this, hsplit]
    simp only [hroot, pathLoop_spec R T ps root hl (fun p hp => ⟨(hps p hp).1, (hps p hp).2.2⟩)]
    cases decide (r = [] ∨ f.name root = r) <;> cases follow f root ps <;> rfl
  unfold docGet
  rw [hlist]
  by_cases h0 : r = [] ∨ f.name root = r
  · cases hfol : follow f root ps with
    | none => simp [h0]
    | some n =>
      obtain ⟨l, e1, H⟩ := AxlList.Holds.add (AxlList.holds_new (α := Option Nat)) (some n)
      obtain ⟨m, e2⟩ := H.free
      have h3 := H.observes.nth 0
      have h4 := H.observes.length
      have h3' : l.getNth 0 = some (some (some n)) := by simpa using h3
      simp only [List.nil_append, List.length_cons, List.length_nil] at h4
      simp [h0, e1, e2, h3', h4]
  · simp [h0]

end Axl.Heap
