/-
Proofs about `Verif.Model.Iterate`.
-/
import Verif.Proofs.TreeNav
import Verif.Proofs.ListRun
import Verif.Proofs.ListOrder
import Verif.Spec.Iterate

namespace Axl
open Spec.Tree Spec.Tree.Forest

theorem flatMap_congr' {α β : Type} {l : List α} {g k : α → List β} (h : ∀ a ∈ l, g a = k a) :
    l.flatMap g = l.flatMap k := by
  induction l with
  | nil => rfl
  | cons a l ih => simp [h a (by simp), ih fun b hb => h b (by simp [hb])]

theorem filterMap_congr' {α β : Type} {l : List α} {g k : α → Option β} (h : ∀ a ∈ l, g a = k a) :
    l.filterMap g = l.filterMap k := by
  induction l with
  | nil => rfl
  | cons a l ih => simp [List.filterMap_cons, h a (by simp), ih fun b hb => h b (by simp [hb])]

/-! ### The list of pending nodes -/

namespace AxlList
open Spec.Seq
variable {α : Type}

/-- A list made with `axl_list_always_return_1` (or a function that answers the same) that holds `xs`. -/
def Holds (l : AxlList α) (xs : List α) : Prop :=
  ∃ s : State α, Agrees alwaysReturn1 false l s ∧ s.elems = xs

theorem holds_new : Holds (AxlList.new alwaysReturn1 false : AxlList α) [] := ⟨_, agrees_new _ _, rfl⟩

theorem Holds.observes {l : AxlList α} {xs : List α} (H : Holds l xs) : Observes l xs := by
  obtain ⟨s, A, rfl⟩ := H
  obtain ⟨ns, h1, h2⟩ := A.rep
  exact h2 ▸ observes_of_rep h1

theorem Holds.free {l : AxlList α} {xs : List α} (H : Holds l xs) : ∃ r, l.free = some r := by
  obtain ⟨s, A, rfl⟩ := H
  obtain ⟨ns, h1, h2⟩ := A.rep
  obtain ⟨m, e, _⟩ := free_spec h1
  exact ⟨_, e⟩

theorem Holds.removeFirst {l : AxlList α} {xs : List α} (H : Holds l xs) :
    ∃ l', l.removeFirst true = some l' ∧ Holds l' xs.tail := by
  obtain ⟨s, A, rfl⟩ := H
  obtain ⟨l', s', h1, h2, h3⟩ := exec_spec A (.takeFirst true)
  refine ⟨l', h1, s', h3, ?_⟩
  cases h2
  cases hx : s.elems <;> simp [State.leave, hx]

theorem Holds.addAt {l : AxlList α} {xs ys : List α} (H : Holds l (xs ++ ys)) (x : α) :
    ∃ l', l.addAt x xs.length = some l' ∧ Holds l' (xs ++ x :: ys) := by
  obtain ⟨s, A, hs⟩ := H
  obtain ⟨l', s', h1, h2, h3⟩ := exec_spec A (.addAt x xs.length)
  refine ⟨l', h1, s', h3, ?_⟩
  cases h2
  simp [State.enter, hs]

theorem Holds.add {l : AxlList α} {xs : List α} (H : Holds l xs) (x : α) :
    ∃ l', l.add x = some l' ∧ Holds l' (xs ++ [x]) := by
  obtain ⟨s, A, hs⟩ := H
  obtain ⟨l', s', h1, h2, h3⟩ := exec_spec A (.add x)
  refine ⟨l', h1, s', h3, ?_⟩
  rw [← hs]
  exact steps_adds_append (eq := alwaysReturn1) [x] (by
    rw [List.pairwise_iff_forall_sublist]; intros; rfl) (.cons h2 (.nil _))

theorem Holds.adds {l : AxlList α} {xs : List α} (H : Holds l xs) (ys : List α) :
    ∃ l', l.run (ys.map Op.add) = some l' ∧ Holds l' (xs ++ ys) := by
  induction ys generalizing l xs with
  | nil => exact ⟨l, rfl, by simpa using H⟩
  | cons y ys ih =>
    obtain ⟨l1, e1, H1⟩ := H.add y
    obtain ⟨l2, e2, H2⟩ := ih H1
    exact ⟨l2, by simp [AxlList.run, AxlList.exec, e1, e2], by simpa using H2⟩

end AxlList

/-! ### How much is below a node -/

namespace Spec.Tree.Forest
variable {f : Forest}

theorem subtree_stable : ∀ {d n : Nat}, Depth f d n → f.live n = true → Tame f → f.subtree (d + 1) n = f.subtree d n
  | 0, _, h, _, _ => h.elim
  | d + 1, n, h, hl, T => by
    simp only [subtree, List.cons.injEq, true_and]
    apply flatMap_congr'
    intro c hc
    have e : Edge f n c := ⟨hl, mem_nodesOf.mp hc⟩
    exact subtree_stable (h c e) (T.closed n c e) T

/-- The number of nodes in the subtree of `n`. -/
def size (f : Forest) (n : Nat) : Nat := (f.subtree f.next n).length

theorem subtree_next (T : Tame f) {n : Nat} (hl : f.live n = true) :
    f.subtree f.next n = n :: (nodesOf (f.kids n)).flatMap (f.subtree f.next) := by
  have hd := depth_next T hl
  have hb := T.bound n hl
  obtain ⟨d, hd'⟩ : ∃ d, f.next = d + 1 := ⟨f.next - 1, by omega⟩
  rw [hd'] at hd
  rw [hd']
  conv => lhs; rw [subtree]
  simp only [List.cons.injEq, true_and]
  apply flatMap_congr'
  intro c hc
  have e : Edge f n c := ⟨hl, mem_nodesOf.mp hc⟩
  exact (subtree_stable (hd c e) (T.closed n c e) T).symm

theorem size_eq (T : Tame f) {n : Nat} (hl : f.live n = true) :
    f.size n = 1 + ((nodesOf (f.kids n)).map f.size).sum := by
  unfold size
  rw [subtree_next T hl]
  simp [List.length_flatMap]
  omega

/-- No node is twice in a subtree. -/
theorem subtree_nodup (T : Tame f) (hs : Single f) (hk : ∀ n, f.live n = true → (nodesOf (f.kids n)).Nodup) :
    ∀ {d n : Nat}, f.live n = true → (f.subtree d n).Nodup
  | 0, _, _ => by simp [subtree]
  | d + 1, n, hl => by
    simp only [subtree, List.nodup_cons]
    constructor
    · intro h
      obtain ⟨c, hc, hm⟩ := List.mem_flatMap.mp h
      have e : Edge f n c := ⟨hl, mem_nodesOf.mp hc⟩
      exact T.no_cycle e (subtree_reach T (T.closed n c e) hm)
    · rw [List.Nodup, List.pairwise_flatMap]
      refine ⟨fun c hc => subtree_nodup T hs hk (T.closed n c ⟨hl, mem_nodesOf.mp hc⟩), ?_⟩
      have hks := hk n hl
      refine List.Pairwise.imp_of_mem ?_ hks
      intro a b ha hb hab x hxa y hyb e
      subst e
      have ea : Edge f n a := ⟨hl, mem_nodesOf.mp ha⟩
      have eb : Edge f n b := ⟨hl, mem_nodesOf.mp hb⟩
      exact siblings_apart T hs ea eb hab (subtree_reach T (T.closed n a ea) hxa)
        (subtree_reach T (T.closed n b eb) hyb)

theorem size_le (T : Tame f) (hs : Single f) (hk : ∀ n, f.live n = true → (nodesOf (f.kids n)).Nodup)
    {n : Nat} (hl : f.live n = true) : f.size n ≤ f.next :=
  nodup_bounded_length (subtree_nodup T hs hk hl) fun _ hx =>
    T.bound _ (T.reach_live hl (subtree_reach T hl hx))

end Spec.Tree.Forest

/-! ### The order of the visits -/

namespace Spec.Iterate
variable {f : Forest} {act : Log → Act}

/-- The children, with their parent. -/
def kidsOf (f : Forest) (n : Nat) : Log := (childs f n).map fun c => (c, some n)

/-- The pending nodes after adding the children. -/
def push (mode : IterMode) (ks ps : Log) : Log :=
  match mode with
  | .deep => ks ++ ps
  | .wide => ps ++ ks

/-- The loop over the pending nodes, without the list. -/
inductive Runs (f : Forest) (act : Log → Act) (mode : IterMode) : Log → Log → Log × Bool → Prop
  | nil {log} : Runs f act mode [] log (log, true)
  | stop {x ps log} : act (log ++ [x]) = .stop → Runs f act mode (x :: ps) log (log ++ [x], false)
  | remove {x ps log r} : act (log ++ [x]) = .remove → Runs f act mode ps (log ++ [x]) r →
      Runs f act mode (x :: ps) log r
  | go {x ps log r} : act (log ++ [x]) = .go → Runs f act mode (push mode (kidsOf f x.1) ps) (log ++ [x]) r →
      Runs f act mode (x :: ps) log r

theorem deep_stopped (d : Nat) (p : Option Nat) (n : Nat) (log : Log) :
    deep f act d p n (log, false) = (log, false) := by cases d <;> rfl

theorem foldl_stopped (d : Nat) (p : Option Nat) (ks : List Nat) (log : Log) :
    ks.foldl (fun s c => deep f act d p c s) (log, false) = (log, false) := by
  induction ks with
  | nil => rfl
  | cons k ks ih => simp only [List.foldl_cons, deep_stopped, ih]

theorem runs_deep (T : Tame f) : ∀ (d : Nat) (ks : List Nat) (p : Option Nat) (log : Log) (rest : Log) (log' : Log),
    (∀ c ∈ ks, Depth f d c ∧ f.live c = true) →
    (ks.foldl (fun s c => deep f act d p c s) (log, true) = (log', false) →
      Runs f act .deep (ks.map (fun c => (c, p)) ++ rest) log (log', false)) ∧
    (ks.foldl (fun s c => deep f act d p c s) (log, true) = (log', true) → ∀ r, Runs f act .deep rest log' r →
      Runs f act .deep (ks.map (fun c => (c, p)) ++ rest) log r) := by
  intro d
  induction d with
  | zero =>
    intro ks p log rest log' hk
    cases ks with
    | nil => exact ⟨by simp, by simp only [List.foldl_nil]; rintro ⟨⟩ r h; exact h⟩
    | cons k ks => exact (hk k (by simp)).1.elim
  | succ d ihd =>
    intro ks
    induction ks with
    | nil =>
      intro p log rest log' _
      exact ⟨by simp, by simp only [List.foldl_nil]; rintro ⟨⟩ r h; exact h⟩
    | cons k ks ih =>
      intro p log rest log' hk
      have hks : ∀ c ∈ ks, Depth f (d + 1) c ∧ f.live c = true := fun c hc => hk c (by simp [hc])
      obtain ⟨hdk, hlk⟩ := hk k (by simp)
      have hkk : ∀ c ∈ childs f k, Depth f d c ∧ f.live c = true := fun c hc =>
        have e : Edge f k c := ⟨hlk, mem_nodesOf.mp hc⟩
        ⟨hdk c e, T.closed k c e⟩
      simp only [List.foldl_cons, List.map_cons, List.cons_append]
      rw [deep]
      cases ha : act (log ++ [(k, p)]) with
      | stop =>
        dsimp only
        rw [foldl_stopped]
        exact ⟨by rintro ⟨⟩; exact .stop ha, by rintro ⟨⟩⟩
      | remove =>
        dsimp only
        have := ih p (log ++ [(k, p)]) rest log' hks
        exact ⟨fun h => .remove ha (this.1 h), fun h r hr => .remove ha (this.2 h r hr)⟩
      | go =>
        dsimp only
        obtain ⟨⟨l1, b⟩, hl1⟩ : ∃ x, (childs f k).foldl (fun s c => deep f act d (some k) c s)
          (log ++ [(k, p)], true) = x := ⟨_, rfl⟩
        rw [hl1]
        have h1 := ihd (childs f k) (some k) (log ++ [(k, p)]) (ks.map (fun c => (c, p)) ++ rest) l1 hkk
        cases b with
        | false =>
          rw [foldl_stopped]
          exact ⟨by rintro ⟨⟩; exact .go ha (h1.1 hl1), by rintro ⟨⟩⟩
        | true =>
          have h2 := ih p l1 rest log' hks
          exact ⟨fun h => .go ha (h1.2 hl1 _ (h2.1 h)), fun h r hr => .go ha (h1.2 hl1 _ (h2.2 h r hr))⟩

theorem runs_level : ∀ (ps : Log) (log acc : Log),
    ((level f act log ps).2.1 = false → Runs f act .wide (ps ++ acc) log ((level f act log ps).1, false)) ∧
    ((level f act log ps).2.1 = true → ∀ r, Runs f act .wide (acc ++ (level f act log ps).2.2) (level f act log ps).1 r →
      Runs f act .wide (ps ++ acc) log r) := by
  intro ps
  induction ps with
  | nil => intro log acc; exact ⟨by simp [level], by simp [level]⟩
  | cons x ps ih =>
    intro log acc
    obtain ⟨n, p⟩ := x
    rw [level]
    cases ha : act (log ++ [(n, p)]) with
    | stop => exact ⟨fun _ => .stop ha, by simp⟩
    | remove =>
      have := ih (log ++ [(n, p)]) acc
      exact ⟨fun h => .remove ha (this.1 h), fun h r hr => .remove ha (this.2 h r hr)⟩
    | go =>
      have := ih (log ++ [(n, p)]) (acc ++ kidsOf f n)
      refine ⟨fun h => .go ha ?_, fun h r hr => .go ha ?_⟩
      · simpa [push] using this.1 h
      · have := this.2 h r (by simpa [kidsOf] using hr)
        simpa [push] using this

theorem mem_level {ps log : Log} {x : Nat × Option Nat} (h : x ∈ (level f act log ps).2.2) :
    ∃ n p, (n, p) ∈ ps ∧ x ∈ kidsOf f n := by
  induction ps generalizing log with
  | nil => simp [level] at h
  | cons y ps ih =>
    obtain ⟨n, p⟩ := y
    rw [level] at h
    cases ha : act (log ++ [(n, p)]) with
    | stop => simp [ha] at h
    | remove =>
      simp only [ha] at h
      obtain ⟨n', p', h1, h2⟩ := ih h
      exact ⟨n', p', by simp [h1], h2⟩
    | go =>
      simp only [ha, List.mem_append] at h
      rcases h with h | h
      · exact ⟨n, p, by simp, h⟩
      · obtain ⟨n', p', h1, h2⟩ := ih h
        exact ⟨n', p', by simp [h1], h2⟩

theorem runs_wide (T : Tame f) : ∀ (d : Nat) (ps log : Log), (∀ x ∈ ps, Depth f d x.1 ∧ f.live x.1 = true) →
    Runs f act .wide ps log (wide f act d log ps) := by
  intro d
  induction d with
  | zero =>
    intro ps log hk
    cases ps with
    | nil => exact .nil
    | cons x ps => exact (hk x (by simp)).1.elim
  | succ d ih =>
    intro ps log hk
    have hl := runs_level (f := f) (act := act) ps log []
    have hm := fun x => mem_level (f := f) (act := act) (ps := ps) (log := log) (x := x)
    rw [wide]
    rcases hlev : level f act log ps with ⟨l1, b, nx⟩
    rw [hlev] at hl hm
    simp only [List.append_nil, List.nil_append] at hl hm
    cases b with
    | false => exact hl.1 rfl
    | true =>
      refine hl.2 rfl _ (ih nx l1 ?_)
      intro x hx
      obtain ⟨n, p, h1, h2⟩ := hm x hx
      obtain ⟨c, hc, rfl⟩ := List.mem_map.mp h2
      obtain ⟨hd, hln⟩ := hk _ h1
      have e : Edge f n c := ⟨hln, mem_nodesOf.mp hc⟩
      exact ⟨hd c e, T.closed n c e⟩

theorem removed_snoc (log : Log) (x : Nat × Option Nat) :
    removed act (log ++ [x]) = removed act log ++ (if act (log ++ [x]) = .remove then [x.1] else []) := by
  unfold removed
  rw [List.length_append, List.length_singleton, List.range_succ, List.filterMap_append]
  congr 1
  · apply filterMap_congr'
    intro i hi
    have hi := List.mem_range.mp hi
    rw [List.take_append_of_le_length (by omega), List.getElem?_append_left hi]
  · have : List.take (log.length + 1) (log ++ [x]) = log ++ [x] := List.take_of_length_le (by simp)
    simp only [List.filterMap_cons, List.filterMap_nil, this, List.getElem?_concat_length, Option.map_some]
    split <;> simp_all

end Spec.Iterate
end Axl
