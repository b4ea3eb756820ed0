/-
Proofs about `Verif.Model.Annotate`.
-/
import Verif.Spec.Annotate
import Verif.Proofs.HashRun
import Verif.Proofs.TreeMove
import Verif.Proofs.TreeNav
import Verif.Props.Hash

namespace Axl.Notes
open Spec.Tree Spec.Tree.Forest Spec.Annotate Spec.Map AxlHash

/-- The keys are compared as strings. -/
abbrev eqKey (a b : List Char) : Bool := hashEqualString (some a) (some b)

/-- The history of the hash of one node, newest first. -/
def past (cs : List Call) (n : Nat) : List (Op (List Char) Note Nat) :=
  (cs.filter fun c => c.node == n).reverse.map fun c => .insert ⟨c.key, c.keyDestroy, c.data, c.dataDestroy⟩

/-- The hashes of the nodes after the calls. -/
def After (a : Notes) (cs : List Call) : Prop :=
  ∀ n, match a n with
    | none => past cs n = []
    | some h => Hist (fun s => hashString (some s)) eqKey h (past cs n)

theorem past_snoc (cs : List Call) (c : Call) (n : Nat) :
    past (cs ++ [c]) n = (if c.node = n then [.insert ⟨c.key, c.keyDestroy, c.data, c.dataDestroy⟩] else []) ++ past cs n := by
  unfold past
  by_cases h : c.node = n <;> simp [List.filter_append, h]

theorem after_annotate {a : Notes} {cs : List Call} (A : After a cs) (c : Call) :
    ∃ a', a.annotate c.node c.key c.keyDestroy c.data c.dataDestroy = some a' ∧ After a' (cs ++ [c]) := by
  have hh : Hist (fun s => hashString (some s)) eqKey ((a c.node).getD newHash) (past cs c.node) := by
    have := A c.node
    cases hn : a c.node with
    | none =>
      rw [hn] at this
      rw [this]
      exact hist_new C09_string_functions_consistent.1 (by decide)
    | some h => rw [hn] at this; exact this
  obtain ⟨h', e, hh'⟩ := hist_exec hh (.insert ⟨c.key, c.keyDestroy, c.data, c.dataDestroy⟩)
  refine ⟨fun m => if m = c.node then some h' else a m, ?_, ?_⟩
  · simp only [AxlHash.exec] at e
    simp [annotate, e]
  · intro n
    rw [past_snoc]
    by_cases hn : n = c.node
    · subst hn
      simpa using hh'
    · simp only [hn, if_false, Ne.symm hn, List.nil_append]
      exact A n

theorem after_run : ∀ (cs cs0 : List Call) {a : Notes}, After a cs0 →
    ∃ a', Spec.Annotate.run a cs = some a' ∧ After a' (cs0 ++ cs)
  | [], cs0, a, A => ⟨a, rfl, by simpa using A⟩
  | c :: cs, cs0, a, A => by
    obtain ⟨a1, e1, A1⟩ := after_annotate A c
    obtain ⟨a2, e2, A2⟩ := after_run cs _ A1
    exact ⟨a2, by simp [Spec.Annotate.run, e1, e2], by simpa using A2⟩

theorem present_inserts (l : List Call) (k : List Char) :
    present eqKey (l.map fun c => Op.insert (⟨c.key, c.keyDestroy, c.data, c.dataDestroy⟩ : Entry (List Char) Note Nat)) k =
      (l.find? fun c => c.key == k).map fun c => ⟨c.key, c.keyDestroy, c.data, c.dataDestroy⟩ := by
  induction l with
  | nil => rfl
  | cons c l ih =>
    simp only [List.map_cons, present, List.find?_cons]
    have h := C09_string_functions_consistent.2 c.key k
    by_cases hk : c.key = k
    · have h1 : eqKey c.key k = true := h.mpr hk
      have h2 : (c.key == k) = true := by simpa using hk
      simp only [h1, h2]
      simp
    · have h1 : eqKey c.key k = false := by
        rw [← Bool.not_eq_true]; exact fun e => hk (h.mp e)
      have h2 : (c.key == k) = false := by simpa using hk
      simp only [h1, h2]
      simpa using ih

theorem getHere_spec {a : Notes} {cs : List Call} (A : After a cs) (n : Nat) (k : List Char) :
    a.getHere n k = some (lastOf cs n k) := by
  have hl : lastOf cs n k = (present eqKey (past cs n) k).bind (·.data) := by
    unfold lastOf past
    rw [present_inserts, List.filter_reverse.symm, List.find?_filter]
    have hp : (fun a : Call => decide ((a.node == n) = true ∧ (a.key == k) = true)) = fun c => c.node == n && c.key == k := by
      funext c
      cases c.node == n <;> cases c.key == k <;> rfl
    rw [hp]
    cases cs.reverse.find? fun c => c.node == n && c.key == k <;> rfl
  have := A n
  unfold getHere
  cases hn : a n with
  | none => rw [hn] at this; rw [hl, this]; rfl
  | some h => rw [hn] at this; rw [hl]; exact hist_get this k

variable {h : Heap} {f : Forest} {ns : Nat → List (Nat × Info)}

theorem ancestors_reach {n : Nat} {ps : List Nat} (A : Ancestors f n ps) : ∀ m ∈ ps, f.live m = true ∧ Reach f m n ∧ m ≠ n ∨ ¬ Tame f := by
  intro m hm
  by_cases T : Tame f
  · left
    induction A with
    | top => simp at hm
    | up h1 h2 _ ih =>
      rename_i n p ps _
      have e : Edge f p n := ⟨h1, h2⟩
      rcases List.mem_cons.mp hm with rfl | hm
      · refine ⟨h1, .tail .refl e, ?_⟩
        rintro rfl
        exact T.no_cycle e .refl
      · obtain ⟨g1, g2, g3⟩ := ih hm
        refine ⟨g1, g2.tail e, ?_⟩
        rintro rfl
        exact T.no_cycle e g2
  · exact Or.inr T

theorem ancestors_nodup (T : Tame f) {n : Nat} {ps : List Nat} (A : Ancestors f n ps) : ps.Nodup := by
  induction A with
  | top => simp
  | up h1 h2 A ih =>
    refine List.nodup_cons.mpr ⟨fun hm => ?_, ih⟩
    rcases ancestors_reach A _ hm with h | h
    · exact h.2.2 rfl
    · exact h T

theorem getUp_spec (R : Heap.Rep h f ns) {a : Notes} {cs : List Call} (A : After a cs) (k : List Char) :
    ∀ (ps : List Nat) (n : Nat) (fuel : Nat), ps.length ≤ fuel → Ancestors f n ps →
    h.getParent ((n :: ps).getLast (by simp)) = some none →
    ∃ p, h.getParent n = some p ∧ getUp h a k fuel p = some (ps.findSome? fun m => lastOf cs m k) := by
  intro ps
  induction ps with
  | nil =>
    intro n fuel _ _ ht
    exact ⟨none, by simpa using ht, by cases fuel <;> rfl⟩
  | cons p ps ih =>
    intro n fuel hl hA ht
    cases hA with
    | up h1 h2 hA =>
      cases fuel with
      | zero => simp at hl
      | succ fuel =>
        obtain ⟨q, e1, e2⟩ := ih p fuel (by simpa using hl) hA (by simpa using ht)
        refine ⟨some p, (R.shows h1).parents n h2, ?_⟩
        obtain ⟨hd, hn⟩ := R.nodes p h1
        simp only [getUp, hn, getHere_spec A, List.findSome?_cons]
        cases lastOf cs p k with
        | some r => rfl
        | none => simp only [e1, e2]

theorem get_spec (R : Heap.Rep h f ns) (T : Tame f) {a : Notes} {cs : List Call} (A : After a cs) (k : List Char)
    {n : Nat} (hn : f.live n = true) {ps : List Nat} (hA : Ancestors f n ps)
    (ht : h.getParent ((n :: ps).getLast (by simp)) = some none) :
    a.get h n k true = some ((n :: ps).findSome? fun m => lastOf cs m k) := by
  have hlen : ps.length ≤ h.nextNode := by
    rw [R.next]
    exact nodup_bounded_length (ancestors_nodup T hA) fun x hx => by
      rcases ancestors_reach hA x hx with h | h
      · exact T.bound x h.1
      · exact (h T).elim
  obtain ⟨p, e1, e2⟩ := getUp_spec R A k ps n h.nextNode hlen hA ht
  obtain ⟨hd, hx⟩ := R.nodes n hn
  simp only [get, hx, getHere_spec A, List.findSome?_cons]
  cases lastOf cs n k with
  | some r => rfl
  | none => simp only [if_true, e1, e2]

theorem get_here_spec (R : Heap.Rep h f ns) {a : Notes} {cs : List Call} (A : After a cs) (k : List Char)
    {n : Nat} (hn : f.live n = true) : a.get h n k false = some (lastOf cs n k) := by
  obtain ⟨hd, hx⟩ := R.nodes n hn
  simp only [get, hx, getHere_spec A]
  cases lastOf cs n k <;> rfl

end Axl.Notes
