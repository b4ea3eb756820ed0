/-
C31: the content of the node at a path.
-/
import Verif.Model.ContentAt
import Verif.Spec.ContentAt
import Verif.Proofs.Path
import Verif.Props.Path

namespace Axl.Heap
open Spec.Tree Spec.Tree.Forest Spec.Path

variable {h : Heap} {f : Forest} {ns : Nat → List (Nat × Info)}

theorem seekText : ∀ (l : List (Nat × Info)) (k : Nat) (p : Option Nat), l.length ≤ k → Seg h.items p l none →
    ∃ o, h.seekNext (fun d => some (isContent d)) k (headAddr l none) = some o ∧
      ((o = none ∧ texts (l.map (·.2.data)) = []) ∨
        ∃ a i kind s rest, o = some a ∧ h.items a = some i ∧ i.data.data = .text kind s ∧ texts (l.map (·.2.data)) = s :: rest)
  | [], k, p, _, _ => ⟨none, by cases k <;> rfl, .inl ⟨rfl, rfl⟩⟩
  | (a, c) :: l, 0, _, hk, _ => by simp at hk
  | (a, c) :: l, k + 1, p, hk, hs => by
    obtain ⟨q, d⟩ := c
    show ∃ o, h.seekNext _ (k + 1) (some a) = some o ∧ _
    have ih := seekText l k _ (by simpa using hk) hs.2
    have here : ∀ kind s, d = .text kind s → isContent d = true → texts (d :: l.map (·.2.data)) = s :: texts (l.map (·.2.data)) →
        ∃ o, h.seekNext (fun d => some (isContent d)) (k + 1) (some a) = some o ∧
      ((o = none ∧ texts (d :: l.map (·.2.data)) = []) ∨
        ∃ a i kind s rest, o = some a ∧ h.items a = some i ∧ i.data.data = .text kind s ∧ texts (d :: l.map (·.2.data)) = s :: rest) := by
      intro kind s e1 e2 e3
      exact ⟨some a, by simp [seekNext, hs.1, e2], .inr ⟨a, _, kind, s, _, rfl, hs.1, e1, e3⟩⟩
    have skip : isContent d = false → texts (d :: l.map (·.2.data)) = texts (l.map (·.2.data)) →
        ∃ o, h.seekNext (fun d => some (isContent d)) (k + 1) (some a) = some o ∧
      ((o = none ∧ texts (d :: l.map (·.2.data)) = []) ∨
        ∃ a i kind s rest, o = some a ∧ h.items a = some i ∧ i.data.data = .text kind s ∧ texts (d :: l.map (·.2.data)) = s :: rest) := by
      intro e1 e2
      obtain ⟨o, i1, i2⟩ := ih
      refine ⟨o, ?_, by rw [e2]; exact i2⟩
      simp only [seekNext, hs.1, e1]
      exact i1
    simp only [List.map_cons]
    cases d with
    | node n => exact skip rfl rfl
    | text kind s =>
      cases kind with
      | content => exact here _ s rfl rfl rfl
      | cdata => exact here _ s rfl rfl rfl
      | comment => exact skip rfl rfl
      | pi => exact skip rfl rfl

theorem nodeContent_spec (R : Rep h f ns) {n : Nat} (hn : f.live n = true) : h.nodeContent n = some (firstText f n) := by
  obtain ⟨hd, h1⟩ := R.nodes n hn
  obtain ⟨o, e1, e2⟩ := seekText (h := h) (ns n) h.nextItem none (R.length_le hn) (R.seg n hn)
  simp only [nodeContent, h1, Option.bind_eq_bind, Option.bind_some, e1, firstText]
  rw [R.kids_eq hn]
  rcases e2 with ⟨rfl, e2⟩ | ⟨a, i, kind, s, rest, rfl, e3, e4, e5⟩
  · simp [e2]
  · simp [e3, e4, e5]

theorem follow_live (T : Tame f) : ∀ (ps : List (List Char)) (n m : Nat), f.live n = true → follow f n ps = some m → f.live m = true
  | [], n, m, hn, hf => by simp [follow] at hf; exact hf ▸ hn
  | p :: ps, n, m, hn, hf => by
    simp only [follow, Option.bind_eq_some_iff] at hf
    obtain ⟨c, hc, hf⟩ := hf
    exact follow_live T ps c m (T.closed n c ⟨hn, mem_nodesOf.mp (List.mem_of_find?_eq_some hc)⟩) hf

/-- **C31**.  The content at a path is the first text of the node at that path, after any history of the tree; it is NULL
exactly if there is no such node. -/
theorem C31_content_at (ops : List Op) (hf : Forest.empty.Fits ops = true) (root : Nat)
    (hl : (Forest.empty.run ops).live root = true) (r : List Char) (ps : List (List Char)) (hr : '/' ∉ r)
    (hps : ∀ p ∈ ps, p ≠ [] ∧ '/' ∉ p ∧ p ≠ ['*']) :
    ∃ h, Heap.empty.run ops = some h ∧ h.docContentAt (some root) (path (r :: ps)) =
      some (if r = [] ∨ (Forest.empty.run ops).name root = r then
        (follow (Forest.empty.run ops) root ps).map (firstText (Forest.empty.run ops)) else none) := by
  obtain ⟨h, e, ⟨ns, R⟩, T⟩ := inv_run ops inv_empty hf
  refine ⟨h, e, ?_⟩
  simp only [docContentAt, docGet_spec R T hl r ps hr hps, Option.bind_eq_bind, Option.bind_some]
  by_cases h0 : r = [] ∨ (Forest.empty.run ops).name root = r
  · simp only [if_pos h0]
    cases hfol : follow (Forest.empty.run ops) root ps with
    | none => rfl
    | some n => simp [nodeContent_spec R (follow_live T ps root n hl hfol)]
  · simp only [if_neg h0]

/-- A tree with texts, comments and a CDATA section. -/
def contentOps : List Op :=
  [.create ['r'], .create ['a'], .create ['b'], .setChild 0 (.text .comment ['n']), .setChild 0 (.node 1), .setChild 0 (.text .cdata ['x']),
   .setChild 0 (.text .content ['y']), .setChild 0 (.node 2), .setChild 1 (.text .content ['z', 'w'])]

example : Forest.empty.Fits contentOps = true ∧ (Forest.empty.run contentOps).live 0 = true ∧
    firstText (Forest.empty.run contentOps) 0 = ['x'] ∧ firstText (Forest.empty.run contentOps) 1 = ['z', 'w'] ∧
    follow (Forest.empty.run contentOps) 0 [['a']] = some 1 := by decide +kernel

/-- A node without content: the documentation says that the answer is NULL, but it is an empty string. -/
theorem C31_content_at_empty : ∃ h, Heap.empty.run contentOps = some h ∧ h.docContentAt (some 0) c!"/r/b" = some (some []) ∧
    h.docContentAt (some 0) c!"/r/a" = some (some c!"zw") ∧ h.docContentAt (some 0) c!"/r/c" = some none ∧ h.isEmpty 2 = some true :=
  ⟨_, rfl, by decide +kernel, by decide +kernel, by decide +kernel, by decide +kernel⟩

end Axl.Heap
