/-
axlStack stores a plain stack; axlBinaryStack stores a plain stack of booleans.
-/
import Verif.Model.Stack
import Verif.Spec.Stack

namespace Axl
open Spec.Stack
namespace AxlStack
variable {α : Type}

/-- The stack stores `xs`, the head being the top. -/
structure Rep (s : AxlStack α) (xs : List α) : Prop where
  size : s.cells.length = s.size
  items : s.items = xs.length
  le : s.items ≤ s.size
  cells : s.cells.take s.items = xs.reverse.map some

theorem rep_new (d : Bool) : Rep (new d : AxlStack α) [] := by
  constructor <;> simp [new]

theorem read_eq {s : AxlStack α} {xs : List α} (h : Rep s xs) {i : Nat} (hi : i < xs.length) :
    s.read i = xs.reverse[i]? := by
  unfold read
  have hi' : i < s.items := by rw [h.items]; exact hi
  have : (s.cells.take s.items)[i]? = s.cells[i]? := List.getElem?_take_of_lt hi'
  rw [← this, h.cells, List.getElem?_map]
  have : i < xs.reverse.length := by simpa using hi
  rw [List.getElem?_eq_getElem this]
  rfl

theorem push_spec {s : AxlStack α} {xs : List α} (h : Rep s xs) (x : α) :
    ∃ s', s.push (some x) = some s' ∧ Rep s' (x :: xs) ∧ s'.hasDestroy = s.hasDestroy ∧
      s'.destroyed = s.destroyed := by
  have h1 := h.size; have h2 := h.items; have h3 := h.le; have h4 := h.cells
  unfold push
  by_cases e : s.size = s.items
  · simp only [e, if_true]
    refine ⟨{ s with cells := s.cells ++ [some x], size := s.items + 1, items := s.items + 1 },
      by simp [write, h1, e], ⟨?_, ?_, ?_, ?_⟩, rfl, rfl⟩
    · simp [h1, e]
    · simp [h2]
    · simp
    · simp only [List.reverse_cons, List.map_append, List.map_cons, List.map_nil, ← h4]
      have hc : s.cells.take s.items = s.cells := List.take_of_length_le (by omega)
      have hl : s.cells.length = s.items := by omega
      rw [hc, ← hl, List.take_of_length_le (by simp)]
  · have hlt : s.items < s.cells.length := by omega
    refine ⟨{ s with cells := s.cells.set s.items (some x), items := s.items + 1 },
      by simp [e, write, hlt], ⟨?_, ?_, ?_, ?_⟩, rfl, rfl⟩
    · simp [h1]
    · simp [h2]
    · simp; omega
    · simp only [List.reverse_cons, List.map_append, List.map_cons, List.map_nil, ← h4]
      rw [List.take_succ_eq_append_getElem (by simpa using hlt)]
      simp [List.take_set_of_le]

theorem pop_nil {s : AxlStack α} (h : Rep s ([] : List α)) : s.pop = some (none, s) := by
  have := h.items
  unfold pop isEmpty
  simp at this
  simp [this]

theorem pop_cons {s : AxlStack α} {x : α} {xs : List α} (h : Rep s (x :: xs)) :
    ∃ s', s.pop = some (some x, s') ∧ Rep s' xs ∧ s'.hasDestroy = s.hasDestroy ∧ s'.destroyed = s.destroyed := by
  have h1 := h.size; have h2 := h.items; have h3 := h.le; have h4 := h.cells
  simp only [List.length_cons] at h2
  have hr := read_eq h (i := xs.length) (by simp)
  refine ⟨{ s with items := s.items - 1 }, ?_, ⟨h1, ?_, ?_, ?_⟩, rfl, rfl⟩
  · unfold pop isEmpty
    have e : s.items - 1 = xs.length := by omega
    have hr' : read { s with items := s.items - 1 } xs.length = some x := by
      rw [show read { s with items := s.items - 1 } xs.length = s.read xs.length from rfl, hr]
      simp
    rw [if_neg (by simp; omega)]
    simp only [e] at hr' ⊢
    simp [hr']
  · simp only [h2]; omega
  · simp only []; omega
  · simp only []
    have : s.cells.take (s.items - 1) = (s.cells.take s.items).take (s.items - 1) := by
      rw [List.take_take]; congr 1; omega
    rw [this, h4]
    simp only [List.reverse_cons, List.map_append, List.map_cons, List.map_nil]
    rw [List.take_append_of_le_length (by simp; omega), List.take_of_length_le (by simp; omega)]

theorem peek_spec {s : AxlStack α} {xs : List α} (h : Rep s xs) : s.peek = some xs.head? := by
  have h2 := h.items
  unfold peek isEmpty
  cases xs with
  | nil => simp at h2; simp [h2]
  | cons x xs =>
    simp only [List.length_cons] at h2
    have hr := read_eq h (i := xs.length) (by simp)
    rw [if_neg (by simp; omega)]
    have e : s.items - 1 = xs.length := by omega
    rw [e, hr]
    simp

theorem isEmpty_spec {s : AxlStack α} {xs : List α} (h : Rep s xs) : s.isEmpty = xs.isEmpty := by
  have h2 := h.items
  unfold isEmpty
  cases xs <;> simp at h2 <;> simp [h2]

theorem foreachLoop_spec {s : AxlStack α} {xs : List α} (h : Rep s xs) (stop : α → Bool) (it fuel : Nat)
    (hf : xs.length - it < fuel) (hit : it ≤ xs.length) (seen : List α) :
    foreachLoop s stop fuel it seen = some ((visit stop (xs.drop it)).1, seen ++ (visit stop (xs.drop it)).2) := by
  induction fuel generalizing it seen with
  | zero => omega
  | succ f ih =>
    unfold foreachLoop
    by_cases hlt : it < s.items
    · have hlt' : it < xs.length := by rw [← h.items]; exact hlt
      have hr := read_eq h (i := s.items - it - 1) (by have := h.items; omega)
      have e : xs.reverse[s.items - it - 1]? = some xs[it] := by
        rw [List.getElem?_reverse (by have := h.items; omega)]
        have : xs.length - 1 - (s.items - it - 1) = it := by have := h.items; omega
        rw [this, List.getElem?_eq_getElem hlt']
      rw [if_pos hlt, hr, e]
      simp only [Option.bind_eq_bind, Option.bind_some]
      rw [List.drop_eq_getElem_cons hlt']
      simp only [visit]
      split
      · simp
      · rw [ih (it + 1) (by omega) (by omega)]
        simp
    · rw [if_neg hlt, List.drop_of_length_le (by have := h.items; omega)]
      simp [visit]

theorem foreach_spec {s : AxlStack α} {xs : List α} (h : Rep s xs) (stop : α → Bool) :
    s.foreach stop = some (visit stop xs) := by
  unfold foreach
  rw [foreachLoop_spec h stop 0 _ (by have := h.items; omega) (by omega)]
  simp

theorem freeLoop_spec {xs : List α} (fuel : Nat) {s : AxlStack α} (h : Rep s xs) (hf : xs.length < fuel) :
    ∃ s', freeLoop fuel s = some s' ∧ s'.destroyed = s.destroyed ++ xs := by
  induction fuel generalizing s xs with
  | zero => omega
  | succ f ih =>
    unfold freeLoop
    cases xs with
    | nil => exact ⟨s, by simp [isEmpty_spec h], by simp⟩
    | cons x xs =>
      obtain ⟨s1, h1, h2, _, h3⟩ := pop_cons h
      have h2' : Rep { s1 with destroyed := s1.destroyed ++ [x] } xs := ⟨h2.size, h2.items, h2.le, h2.cells⟩
      obtain ⟨s', g1, g2⟩ := ih h2' (by simp at hf; omega)
      refine ⟨s', ?_, by rw [g2]; simp [h3]⟩
      rw [isEmpty_spec h]
      simp only [List.isEmpty_cons, Bool.false_eq_true, if_false, h1, Option.bind_eq_bind, Option.bind_some,
        Option.toList_some, g1]

theorem free_spec {s : AxlStack α} {xs : List α} (h : Rep s xs) :
    s.free = some (s.destroyed ++ if s.hasDestroy then xs else []) := by
  unfold free
  cases hd : s.hasDestroy
  · simp
  · obtain ⟨s', h1, h2⟩ := freeLoop_spec (s.items + 1) h (by have := h.items; omega)
    simp [h1, h2]

/-- The API call for each operation. -/
def exec (s : AxlStack α) : Op α → Option (AxlStack α)
  | .push x => s.push x
  | .pop => s.pop.map Prod.snd

/-- A sequence of calls. -/
def run (s : AxlStack α) : List (Op α) → Option (AxlStack α)
  | [] => some s
  | op :: ops => do let s ← s.exec op; s.run ops

theorem run_spec (ops : List (Op α)) {s : AxlStack α} {xs : List α} (h : Rep s xs) :
    ∃ s', s.run ops = some s' ∧ Rep s' (ops.foldl step xs) ∧ s'.hasDestroy = s.hasDestroy ∧
      s'.destroyed = s.destroyed := by
  induction ops generalizing s xs with
  | nil => exact ⟨s, rfl, h, rfl, rfl⟩
  | cons op ops ih =>
    have : ∃ s1, s.exec op = some s1 ∧ Rep s1 (step xs op) ∧ s1.hasDestroy = s.hasDestroy ∧
        s1.destroyed = s.destroyed := by
      cases op with
      | push x =>
        cases x with
        | none => exact ⟨s, rfl, h, rfl, rfl⟩
        | some x => exact push_spec h x
      | pop =>
        cases xs with
        | nil => exact ⟨s, by simp [exec, pop_nil h], h, rfl, rfl⟩
        | cons x xs =>
          obtain ⟨s', h1, h2, h3, h4⟩ := pop_cons h
          exact ⟨s', by simp [exec, h1], h2, h3, h4⟩
    obtain ⟨s1, h1, h2, h3, h4⟩ := this
    obtain ⟨s2, g1, g2, g3, g4⟩ := ih h2
    exact ⟨s2, by simp [run, h1, g1], g2, g3.trans h3, g4.trans h4⟩

end AxlStack

namespace BinaryStack

/-- The booleans encoded by a list of runs. -/
def expand : List (Nat × BNode) → List Bool
  | [] => []
  | (_, n) :: t => List.replicate n.count.toNat n.state ++ expand t

/-- The binary stack stores the runs `ns` (addresses and nodes), the head being the top. -/
structure Rep (b : BinaryStack) (ns : List (Nat × BNode)) : Prop where
  stack : AxlStack.Rep b.stack (ns.map Prod.fst)
  last : b.last = (ns.map Prod.fst).head?
  nodes : ∀ a n, (a, n) ∈ ns → b.heap a = some n
  pos : ∀ a n, (a, n) ∈ ns → 0 < n.count
  nodup : (ns.map Prod.fst).Nodup
  bound : ∀ a ∈ ns.map Prod.fst, a < b.brk
  count : b.count = (expand ns).length

theorem rep_new : Rep new [] := by
  constructor <;> simp [new, expand]
  exact AxlStack.rep_new true

theorem pushCreate_spec {b : BinaryStack} {ns : List (Nat × BNode)} (h : Rep b ns) (state : Bool) :
    ∃ b' ns', b.pushCreate state = some b' ∧ Rep b' ns' ∧ expand ns' = state :: expand ns := by
  obtain ⟨st, h1, h2, _⟩ := AxlStack.push_spec h.stack b.brk
  have hfresh : ∀ a ∈ ns.map Prod.fst, a ≠ b.brk := by
    intro a ha e; have := h.bound a ha; omega
  refine ⟨{ ({ b with brk := b.brk + 1 }).setNode b.brk ⟨1, state⟩ with
      last := some b.brk, stack := st, count := b.count + 1 },
    (b.brk, ⟨1, state⟩) :: ns, ?_, ?_, by simp [expand]⟩
  · simp only [pushCreate, setNode, h1, Option.bind_eq_bind, Option.bind_some]
  · refine ⟨h2, rfl, ?_, ?_, ?_, ?_, ?_⟩
    · intro a n hm
      simp only [List.mem_cons, Prod.mk.injEq] at hm
      rcases hm with ⟨rfl, rfl⟩ | hm
      · simp [setNode]
      · have : a ≠ b.brk := hfresh a (List.mem_map.2 ⟨(a, n), hm, rfl⟩)
        simp [setNode, this, h.nodes a n hm]
    · intro a n hm
      simp only [List.mem_cons, Prod.mk.injEq] at hm
      rcases hm with ⟨rfl, rfl⟩ | hm
      · simp
      · exact h.pos a n hm
    · simp only [List.map_cons, List.nodup_cons]
      exact ⟨fun hm => hfresh _ hm rfl, h.nodup⟩
    · intro a ha
      simp only [List.map_cons, List.mem_cons] at ha
      rcases ha with rfl | ha
      · simp [setNode]
      · have := h.bound a ha; simp [setNode]; omega
    · have := h.count; simp [expand, this]

/-- Changing the count of the top run. -/
theorem rep_setTop {b : BinaryStack} {a : Nat} {n n' : BNode} {ns : List (Nat × BNode)}
    (h : Rep b ((a, n) :: ns)) (hpos : 0 < n'.count) (c : Int)
    (hc : c = (expand ((a, n') :: ns)).length) :
    Rep { b.setNode a n' with count := c } ((a, n') :: ns) := by
  have hnd := h.nodup
  simp only [List.map_cons, List.nodup_cons] at hnd
  refine ⟨h.stack, h.last, ?_, ?_, h.nodup, h.bound, hc⟩
  · intro x m hm
    simp only [List.mem_cons, Prod.mk.injEq] at hm
    rcases hm with ⟨rfl, rfl⟩ | hm
    · simp [setNode]
    · have : x ≠ a := by
        intro e; subst e
        exact hnd.1 (List.mem_map.2 ⟨(x, m), hm, rfl⟩)
      simp [setNode, this]
      exact h.nodes x m (by simp [hm])
  · intro x m hm
    simp only [List.mem_cons, Prod.mk.injEq] at hm
    rcases hm with ⟨rfl, rfl⟩ | hm
    · exact hpos
    · exact h.pos x m (by simp [hm])

theorem toNat_succ {c : Int} (h : 0 < c) : (c + 1).toNat = c.toNat + 1 := by omega

theorem bump_spec {b : BinaryStack} {a : Nat} {n : BNode} {ns : List (Nat × BNode)}
    (h : Rep b ((a, n) :: ns)) :
    ∃ ns', Rep { b.setNode a { n with count := n.count + 1 } with count := b.count + 1 } ns' ∧
      expand ns' = n.state :: expand ((a, n) :: ns) := by
  have hp := h.pos a n (by simp)
  have he : expand ((a, { n with count := n.count + 1 }) :: ns) = n.state :: expand ((a, n) :: ns) := by
    simp only [expand, toNat_succ hp, List.replicate_succ, List.cons_append]
  refine ⟨_, rep_setTop h (by simp; omega) _ ?_, he⟩
  rw [he, h.count]; simp

theorem push_spec {b : BinaryStack} {ns : List (Nat × BNode)} (h : Rep b ns) (state : Bool) :
    ∃ b' ns', b.push state = some b' ∧ Rep b' ns' ∧ expand ns' = state :: expand ns := by
  unfold push
  cases ns with
  | nil =>
    have hl := h.last
    simp only [List.map_nil, List.head?_nil] at hl
    rw [hl]
    exact pushCreate_spec h state
  | cons c ns =>
    obtain ⟨a, n⟩ := c
    have hl := h.last
    simp only [List.map_cons, List.head?_cons] at hl
    rw [hl]
    simp only [h.nodes a n (by simp), Option.bind_eq_bind, Option.bind_some]
    split
    · rename_i e
      obtain ⟨ns', h1, h2⟩ := bump_spec h
      exact ⟨_, ns', rfl, h1, by rw [h2, e]⟩
    · exact pushCreate_spec h state

theorem pushTheSame_spec {b : BinaryStack} {ns : List (Nat × BNode)} (h : Rep b ns) :
    ∃ b' ns', b.pushTheSame = some b' ∧ Rep b' ns' ∧ expand ns' = bstep (expand ns) .pushTheSame := by
  unfold pushTheSame
  cases ns with
  | nil =>
    have hl := h.last
    simp only [List.map_nil, List.head?_nil] at hl
    rw [hl]
    exact ⟨b, [], rfl, h, rfl⟩
  | cons c ns =>
    obtain ⟨a, n⟩ := c
    have hl := h.last
    simp only [List.map_cons, List.head?_cons] at hl
    rw [hl]
    simp only [h.nodes a n (by simp), Option.bind_eq_bind, Option.bind_some]
    obtain ⟨ns', h1, h2⟩ := bump_spec h
    refine ⟨_, ns', rfl, h1, ?_⟩
    rw [h2]
    have hp := h.pos a n (by simp)
    obtain ⟨k, hk⟩ : ∃ k, n.count.toNat = k + 1 := ⟨n.count.toNat - 1, by omega⟩
    simp [expand, hk, List.replicate_succ, bstep]

theorem pop_spec {b : BinaryStack} {ns : List (Nat × BNode)} (h : Rep b ns) :
    ∃ b' ns', b.pop = some ((expand ns).head?.getD false, b') ∧ Rep b' ns' ∧ expand ns' = (expand ns).tail := by
  unfold pop
  cases ns with
  | nil =>
    have hl := h.last
    simp only [List.map_nil, List.head?_nil] at hl
    rw [hl]
    exact ⟨b, [], rfl, h, rfl⟩
  | cons c ns =>
    obtain ⟨a, n⟩ := c
    have hl := h.last
    simp only [List.map_cons, List.head?_cons] at hl
    rw [hl]
    simp only [h.nodes a n (by simp), Option.bind_eq_bind, Option.bind_some]
    have hp := h.pos a n (by simp)
    obtain ⟨k, hk⟩ : ∃ k, n.count.toNat = k + 1 := ⟨n.count.toNat - 1, by omega⟩
    have hhead : (expand ((a, n) :: ns)).head?.getD false = n.state := by
      simp [expand, hk, List.replicate_succ]
    have hcount := h.count
    rw [hhead]
    by_cases h1 : n.count > 1
    · rw [if_pos h1]
      have he : expand ((a, { n with count := n.count - 1 }) :: ns) = (expand ((a, n) :: ns)).tail := by
        have : (n.count - 1).toNat = k := by omega
        simp [expand, hk, this, List.replicate_succ]
      refine ⟨_, _, rfl, rep_setTop h (by simp; omega) _ ?_, he⟩
      rw [he]
      show b.count - 1 = _
      rw [hcount]
      have : (expand ((a, n) :: ns)).length = k + 1 + (expand ns).length := by simp [expand, hk]
      simp only [List.length_tail]
      omega
    · have h2 : n.count = 1 := by omega
      rw [if_neg h1, if_pos h2]
      obtain ⟨st, g1, g2, _⟩ := AxlStack.pop_cons h.stack
      have g3 := AxlStack.peek_spec g2
      simp only [g1, g3, Option.bind_some]
      have hk0 : k = 0 := by omega
      subst hk0
      refine ⟨_, ns, rfl, ⟨g2, rfl, ?_, ?_, ?_, ?_, ?_⟩, by simp [expand, hk]⟩
      · intro x m hm
        have hnd := h.nodup
        simp only [List.map_cons, List.nodup_cons] at hnd
        have : x ≠ a := by
          intro e; subst e
          exact hnd.1 (List.mem_map.2 ⟨(x, m), hm, rfl⟩)
        simp [this, h.nodes x m (by simp [hm])]
      · intro x m hm; exact h.pos x m (by simp [hm])
      · have hnd := h.nodup
        simp only [List.map_cons, List.nodup_cons] at hnd
        exact hnd.2
      · intro x hx; exact h.bound x (by simp at hx ⊢; exact Or.inr hx)
      · simp [hcount, expand, hk]

theorem peek_spec {b : BinaryStack} {ns : List (Nat × BNode)} (h : Rep b ns) :
    b.peek = some ((expand ns).head?.getD false) := by
  unfold peek
  cases ns with
  | nil =>
    have hl := h.last
    simp only [List.map_nil, List.head?_nil] at hl
    rw [hl]; rfl
  | cons c ns =>
    obtain ⟨a, n⟩ := c
    have hl := h.last
    simp only [List.map_cons, List.head?_cons] at hl
    rw [hl]
    simp only [h.nodes a n (by simp), Option.bind_eq_bind, Option.bind_some]
    have hp := h.pos a n (by simp)
    obtain ⟨k, hk⟩ : ∃ k, n.count.toNat = k + 1 := ⟨n.count.toNat - 1, by omega⟩
    simp [expand, hk, List.replicate_succ]

theorem isEmpty_spec {b : BinaryStack} {ns : List (Nat × BNode)} (h : Rep b ns) :
    b.isEmpty = (expand ns).isEmpty := by
  unfold isEmpty
  rw [AxlStack.isEmpty_spec h.stack, h.last]
  cases ns with
  | nil => rfl
  | cons c ns =>
    obtain ⟨a, n⟩ := c
    have hp := h.pos a n (by simp)
    obtain ⟨k, hk⟩ : ∃ k, n.count.toNat = k + 1 := ⟨n.count.toNat - 1, by omega⟩
    simp [expand, hk, List.replicate_succ]

/-- The API call for each operation. -/
def exec (b : BinaryStack) : BOp → Option BinaryStack
  | .push s => b.push s
  | .pushTheSame => b.pushTheSame
  | .pop => b.pop.map Prod.snd

/-- A sequence of calls. -/
def run (b : BinaryStack) : List BOp → Option BinaryStack
  | [] => some b
  | op :: ops => do let b ← b.exec op; b.run ops

theorem run_spec (ops : List BOp) {b : BinaryStack} {ns : List (Nat × BNode)} (h : Rep b ns) :
    ∃ b' ns', b.run ops = some b' ∧ Rep b' ns' ∧ expand ns' = ops.foldl bstep (expand ns) := by
  induction ops generalizing b ns with
  | nil => exact ⟨b, ns, rfl, h, rfl⟩
  | cons op ops ih =>
    have : ∃ b1 ns1, b.exec op = some b1 ∧ Rep b1 ns1 ∧ expand ns1 = bstep (expand ns) op := by
      cases op with
      | push s => exact push_spec h s
      | pushTheSame => exact pushTheSame_spec h
      | pop =>
        obtain ⟨b', ns', h1, h2, h3⟩ := pop_spec h
        exact ⟨b', ns', by simp [exec, h1], h2, h3⟩
    obtain ⟨b1, ns1, h1, h2, h3⟩ := this
    obtain ⟨b2, ns2, g1, g2, g3⟩ := ih h2
    exact ⟨b2, ns2, by simp [run, h1, g1], g2, by rw [g3, h3]; rfl⟩

end BinaryStack
end Axl
