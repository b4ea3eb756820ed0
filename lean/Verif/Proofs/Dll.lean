/-
Doubly linked segments: the representation predicate used for lists and for tree items.
-/
import Verif.Model.Dll

namespace Axl
namespace Mem
variable {α : Type}

theorem put_self (m : Mem α) (a : Nat) (c : Cell α) : m.put a c a = some c := by simp [put]

theorem put_ne (m : Mem α) {a b : Nat} (c : Cell α) (h : b ≠ a) : m.put a c b = m b := by
  simp [put, h]

@[simp] theorem put_put (m : Mem α) (a : Nat) (c c' : Cell α) : (m.put a c).put a c' = m.put a c' := by
  funext b; simp only [put]; split <;> rfl

theorem setNext_of {m : Mem α} {a : Nat} {c : Cell α} (h : m a = some c) (n : Option Nat) :
    m.setNext a n = some (m.put a { c with next := n }) := by simp [setNext, h]

theorem setPrev_of {m : Mem α} {a : Nat} {c : Cell α} (h : m a = some c) (n : Option Nat) :
    m.setPrev a n = some (m.put a { c with prev := n }) := by simp [setPrev, h]

end Mem

variable {α : Type}

/-- Address of the first node, if any, else `n`. -/
def headAddr (ns : List (Nat × α)) (n : Option Nat) : Option Nat :=
  match ns with
  | [] => n
  | (a, _) :: _ => some a

/-- Address of the last node, if any, else `p`. -/
def lastAddr (ns : List (Nat × α)) (p : Option Nat) : Option Nat :=
  match ns with
  | [] => p
  | (a, _) :: t => lastAddr t (some a)

/-- `Seg m p ns n`: the cells `ns` are linked in this order in `m`; the cell before the first is
`p` and the cell after the last is `n`. -/
def Seg (m : Mem α) (p : Option Nat) : List (Nat × α) → Option Nat → Prop
  | [], _ => True
  | (a, x) :: t, n => m a = some ⟨p, headAddr t n, x⟩ ∧ Seg m (some a) t n

@[simp] theorem headAddr_nil (n : Option Nat) : headAddr ([] : List (Nat × α)) n = n := rfl
@[simp] theorem headAddr_cons (a : Nat) (x : α) (t) (n : Option Nat) :
    headAddr ((a, x) :: t) n = some a := rfl
@[simp] theorem lastAddr_nil (n : Option Nat) : lastAddr ([] : List (Nat × α)) n = n := rfl
@[simp] theorem lastAddr_cons (a : Nat) (x : α) (t) (n : Option Nat) :
    lastAddr ((a, x) :: t) n = lastAddr t (some a) := rfl

theorem headAddr_append (l r : List (Nat × α)) (n : Option Nat) :
    headAddr (l ++ r) n = headAddr l (headAddr r n) := by
  cases l with
  | nil => rfl
  | cons a t => rfl

theorem lastAddr_append (l r : List (Nat × α)) (p : Option Nat) :
    lastAddr (l ++ r) p = lastAddr r (lastAddr l p) := by
  induction l generalizing p with
  | nil => rfl
  | cons a t ih => exact ih _

theorem lastAddr_concat (l : List (Nat × α)) (a : Nat) (x : α) (p : Option Nat) :
    lastAddr (l ++ [(a, x)]) p = some a := by
  rw [lastAddr_append]; rfl

theorem lastAddr_ne_none (l : List (Nat × α)) (h : l ≠ []) (p : Option Nat) :
    lastAddr l p = lastAddr l none := by
  cases l with
  | nil => exact absurd rfl h
  | cons a t => rfl

theorem headAddr_eq_none (l : List (Nat × α)) : headAddr l none = none ↔ l = [] := by
  cases l <;> simp [headAddr]

theorem lastAddr_isSome (l : List (Nat × α)) (a : Nat) : ∃ b, lastAddr l (some a) = some b := by
  induction l generalizing a with
  | nil => exact ⟨a, rfl⟩
  | cons c t ih => exact ih c.1

theorem lastAddr_eq_none (l : List (Nat × α)) : lastAddr l none = none ↔ l = [] := by
  cases l with
  | nil => simp
  | cons c t =>
    obtain ⟨b, hb⟩ := lastAddr_isSome t c.1
    simp [lastAddr, hb]

theorem seg_append (m : Mem α) (l r : List (Nat × α)) (p n : Option Nat) :
    Seg m p (l ++ r) n ↔ Seg m p l (headAddr r n) ∧ Seg m (lastAddr l p) r n := by
  induction l generalizing p with
  | nil => simp [Seg]
  | cons a t ih =>
    obtain ⟨a, x⟩ := a
    simp only [List.cons_append, Seg, lastAddr_cons, ih, headAddr_append, and_assoc]

/-- Frame: a segment only depends on the cells at its own addresses. -/
theorem seg_frame {m m' : Mem α} {ns : List (Nat × α)} {p n : Option Nat}
    (h : ∀ a ∈ ns.map Prod.fst, m' a = m a) (hs : Seg m p ns n) : Seg m' p ns n := by
  induction ns generalizing p with
  | nil => trivial
  | cons a t ih =>
    obtain ⟨a, x⟩ := a
    refine ⟨?_, ih (fun b hb => h b (by simp at hb ⊢; exact Or.inr hb)) hs.2⟩
    rw [h a (by simp)]; exact hs.1

theorem seg_put_of_notMem {m : Mem α} {ns : List (Nat × α)} {p n : Option Nat} {a : Nat}
    {c : Cell α} (h : a ∉ ns.map Prod.fst) (hs : Seg m p ns n) : Seg (m.put a c) p ns n :=
  seg_frame (fun b hb => Mem.put_ne _ _ (fun e => h (e ▸ hb))) hs

/-- Every cell of a segment is allocated. -/
theorem seg_alloc {m : Mem α} {ns : List (Nat × α)} {p n : Option Nat} (hs : Seg m p ns n)
    {a : Nat} (ha : a ∈ ns.map Prod.fst) : ∃ c, m a = some c := by
  induction ns generalizing p with
  | nil => simp at ha
  | cons b t ih =>
    obtain ⟨b, x⟩ := b
    simp only [List.map_cons, List.mem_cons] at ha
    rcases ha with rfl | ha
    · exact ⟨_, hs.1⟩
    · exact ih hs.2 ha

/-- Changing what precedes a non-empty segment. -/
theorem seg_setPrev {m : Mem α} {a : Nat} {x : α} {t : List (Nat × α)} {p n : Option Nat}
    (p' : Option Nat) (hs : Seg m p ((a, x) :: t) n) (hnd : a ∉ t.map Prod.fst) :
    ∃ m', m.setPrev a p' = some m' ∧ Seg m' p' ((a, x) :: t) n ∧ (∀ b, b ≠ a → m' b = m b) := by
  refine ⟨m.put a ⟨p', headAddr t n, x⟩, ?_, ⟨Mem.put_self _ _ _, ?_⟩, ?_⟩
  · simp [Mem.setPrev, hs.1]
  · exact seg_put_of_notMem hnd hs.2
  · intro b hb; exact Mem.put_ne _ _ hb

/-- Changing what follows a non-empty segment. -/
theorem seg_setNext {m : Mem α} {a : Nat} {x : α} {t : List (Nat × α)} {p n : Option Nat}
    (n' : Option Nat) (hs : Seg m p (t ++ [(a, x)]) n) (hnd : a ∉ t.map Prod.fst) :
    ∃ m', m.setNext a n' = some m' ∧ Seg m' p (t ++ [(a, x)]) n' ∧ (∀ b, b ≠ a → m' b = m b) := by
  rw [seg_append] at hs
  obtain ⟨h1, h2⟩ := hs
  refine ⟨m.put a ⟨lastAddr t p, n', x⟩, ?_, ?_, ?_⟩
  · simp [Mem.setNext, h2.1]
  · rw [seg_append]
    exact ⟨seg_put_of_notMem hnd h1, Mem.put_self _ _ _, trivial⟩
  · intro b hb; exact Mem.put_ne _ _ hb

/-- A cell in the middle of a segment. -/
theorem seg_mid {m : Mem α} {l r : List (Nat × α)} {a : Nat} {x : α} {p n : Option Nat}
    (hs : Seg m p (l ++ (a, x) :: r) n) : m a = some ⟨lastAddr l p, headAddr r n, x⟩ := by
  rw [seg_append] at hs
  exact hs.2.1

/-- Splitting a non-empty list at its end. -/
theorem eq_nil_or_concat' (l : List (Nat × α)) : l = [] ∨ ∃ t a x, l = t ++ [(a, x)] := by
  rcases List.eq_nil_or_concat l with h | ⟨t, ⟨a, x⟩, h⟩
  · exact Or.inl h
  · exact Or.inr ⟨t, a, x, by simpa using h⟩

end Axl
