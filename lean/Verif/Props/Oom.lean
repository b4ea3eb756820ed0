/-
Property C70: running out of memory in the containers.
-/
import Verif.Proofs.OomHash
import Verif.Props.Hash

namespace Axl
open Spec Spec.Map
variable {α κ δ φ : Type}

/-! ## Lists -/

/-- **C70, lists**.  Whatever the system answers when each call of a history asks for memory, the list is the sequence that the
calls give, one that stores an element and is refused memory changing nothing; and what it had stored is destroyed as it should
be: of the elements that entered it, once each, those that it was told to destroy and those left when it is freed, and not those
that were taken out. -/
theorem C70_list (eq : α → α → Int) (d : Bool) (ops : List (Seq.Op α × Answers)) :
    ∃ l s m calls, (AxlList.new eq d).runOom ops = some l ∧ Oom.Steps eq {} ops s ∧ AxlList.Observes l s.elems ∧
      l.free = some (m, calls) ∧ (d = false → calls = []) ∧ (d = true → (calls ++ s.unlinked).Perm s.entered) := by
  obtain ⟨l, s, h1, h2, h3⟩ := AxlList.runOom_spec ops (AxlList.agrees_new eq d)
  obtain ⟨ns, h4, h5⟩ := h3.rep
  obtain ⟨m, h6, -⟩ := AxlList.free_spec h4
  refine ⟨l, s, m, _, h1, h2, h5 ▸ AxlList.observes_of_rep h4, h6, ?_, ?_⟩
  · rintro rfl
    rw [h3.destroyed, h3.hasDestroy]; rfl
  · rintro rfl
    rw [h3.destroyed, h3.hasDestroy, h5]
    exact AxlList.oom_perm h2 (List.Perm.refl _)

/-- The second element is refused the array of the pool, the fourth one its node. -/
example : ((AxlList.new AxlList.equalInt true).runOom [(.append 1, []), (.append 2, [false]), (.append 3, [true, true]), (.prepend 4, [true, false]),
    (.append 5, [])]).bind (fun l => l.free.map (·.2)) = some [1, 3, 5] := by decide +kernel

/-- **C70, lists**.  After an element was taken out of a list, whatever the history, one can be appended without any memory
being given. -/
theorem C70_list_reuses (eq : α → α → Int) (d : Bool) (ops : List (Seq.Op α × Answers)) (b : Bool) (x : α) (a : Answers) :
    ∃ l s, (AxlList.new eq d).runOom ops = some l ∧ Oom.Steps eq {} ops s ∧ (s.elems ≠ [] →
      ∃ l1 l2, l.removeFirst b = some l1 ∧ l1.appendOom a x = some l2 ∧ AxlList.Observes l2 (s.elems.tail ++ [x])) := by
  obtain ⟨l, s, h1, h2, h3⟩ := AxlList.runOom_spec ops (AxlList.agrees_new eq d)
  refine ⟨l, s, h1, h2, fun hne => ?_⟩
  obtain ⟨ns, h4, h5⟩ := h3.rep
  obtain ⟨l1, g1, g2⟩ := AxlList.removeFirst_spec h4 b
  obtain ⟨l2, c, k1, k2, -⟩ := AxlList.append_spec g2.rep x
  refine ⟨l1, l2, g1, ?_, ?_⟩
  · have hp : l1.pool ≠ [] := by
      cases ns with
      | nil => rw [List.map_nil] at h5; exact absurd h5.symm hne
      | cons e t =>
        unfold AxlList.removeFirst at g1
        rw [h4.first] at g1
        exact AxlList.removeNode_pool g1
    unfold AxlList.appendOom AxlList.prepare
    cases e : l1.pool with
    | nil => exact absurd e hp
    | cons => exact k1
  · have := AxlList.observes_of_rep k2
    rw [List.map_append, List.map_tail, h5] at this
    exact this

example : ((AxlList.new AxlList.equalInt true).runOom [(.append 1, []), (.append 2, []), (.takeFirst true, []),
    (.append 3, [false, false]), (.append 4, [false, false])]).bind (fun l => l.free.map (·.2)) = some [1, 2, 3] := by decide +kernel

/-- **C70, copies of lists**.  After any history a list is copied, and the memory for the copy itself is given: the copy is what
the calls that add each element, copied or not, give, an element that is refused memory being left out; the function was called
once for each element, in order, with what it was given stored or not. -/
theorem C70_list_copy (eq : α → α → Int) (d : Bool) (ops : List (Seq.Op α)) (a : Answers) (as : List Answers)
    (func : Option (α → α)) : ∃ l s r s', (AxlList.new eq d).run ops = some l ∧ Seq.Steps eq {} ops s ∧
      l.copyOom (true :: a) as func = some (some r, (func.map fun f => s.elems.map f).getD []) ∧
      Oom.Steps eq {} (Oom.storing (s.elems.map (func.getD id)) as) s' ∧ AxlList.Observes r s'.elems := by
  obtain ⟨l, s, h1, h2, h3⟩ := AxlList.run_spec ops (AxlList.agrees_new eq d)
  obtain ⟨ns, h4, h5⟩ := h3.rep
  obtain ⟨r, s', g1, g2, g3⟩ := AxlList.runOom_spec (Oom.storing (s.elems.map (func.getD id)) as)
    (AxlList.agrees_new eq (func.isSome && l.hasDestroy))
  obtain ⟨ns', k1, k2⟩ := g3.rep
  refine ⟨l, s, r, s', h1, h2, ?_, g2, k2 ▸ AxlList.observes_of_rep k1⟩
  have hl := h4.len
  unfold AxlList.copyOom AxlList.newOom
  rw [show (alloc (true :: a)).1 = true from rfl, if_pos rfl]
  have := AxlList.copyLoopOom_spec h4 func (l.length.toNat + 1) 0 (by omega) (by omega) as
    (AxlList.new l.areEqual (func.isSome && l.hasDestroy)) []
  simp only [List.drop_zero, h5, h3.areEqual, g1, Option.map_some, List.nil_append] at this ⊢
  cases func <;> exact this

/-- The third of four elements is left out. -/
example : (((AxlList.new AxlList.equalInt true).run [.append 1, .append 2, .append 3, .append 4]).bind fun l =>
    (l.copyOom [true] [[], [], [true, false], []] (some (· + 10))).bind fun (r, made) =>
      (r.bind AxlList.free).map fun t => (t.2, made)) = some ([14, 12, 11], [11, 12, 13, 14]) := by decide +kernel

/-- **C70**: not of the code, copies of lists.  If the memory for the copy is refused, the elements are copied and lost. -/
theorem C70_not_list_copy_lost (eq : α → α → Int) (d : Bool) (ops : List (Seq.Op α)) (a : Answers) (as : List Answers)
    (f : α → α) : ∃ l s, (AxlList.new eq d).run ops = some l ∧ Seq.Steps eq {} ops s ∧
      l.copyOom (false :: a) as (some f) = some (none, s.elems.map f) := by
  obtain ⟨l, s, h1, h2, h3⟩ := AxlList.run_spec ops (AxlList.agrees_new eq d)
  obtain ⟨ns, h4, h5⟩ := h3.rep
  refine ⟨l, s, h1, h2, ?_⟩
  have hl := h4.len
  have := AxlList.copyLoopOom_none h4 f (l.length.toNat + 1) 0 (by omega) (by omega) as []
  simpa [h5, AxlList.copyOom, AxlList.newOom, alloc] using this

example : (((AxlList.new AxlList.equalInt true).run [.append 1, .append 2]).bind fun l =>
    l.copyOom [false] [] (some (· + 10))).map (·.2) = some [11, 12] := by decide +kernel

/-- **C70**: not of the code, copies of lists.  `axl_list_copy` without a function to copy the data writes through what
`axl_list_new` gave. -/
theorem C70_not_list_copy (l : AxlList α) (as : List Answers) : l.copyOom [false] as none = none := rfl

/-- It is defined when memory is given. -/
example : (((AxlList.new AxlList.equalInt true).run [.append 1, .append 2]).bind fun l => l.copyOom [true] [] none).isSome := by decide +kernel

/-- **C70**: not of the code, copies of lists.  With one, what it copied for an element that cannot be stored is lost: the copy
has one element, two were made, and what is destroyed with the copy is one. -/
theorem C70_not_list_copy_leak : ∃ (l r : AxlList Int) (made : List Int), (AxlList.new AxlList.equalInt true).run [.append 1, .append 2] = some l ∧
    l.copyOom [] [[], [false]] (some (· + 10)) = some (some r, made) ∧ made = [11, 12] ∧ (r.free.map (·.2)) = some [11] := by
  refine ⟨_, _, _, rfl, rfl, rfl, by decide +kernel⟩

/-! ## Stacks -/

/-- **C70, stacks**.  Whatever the system answers, the stack is what the calls give, a push that is refused memory changing
nothing; and once an element was taken a push needs no memory. -/
theorem C70_stack (d : Bool) (ops : List (Stack.Op α × Answers)) :
    ∃ s xs, (AxlStack.new d).runOom ops = some s ∧ Oom.StackSteps [] ops xs ∧
      s.items = xs.length ∧ s.isEmpty = xs.isEmpty ∧ s.peek = some xs.head? ∧ s.pop.map Prod.fst = some xs.head? ∧
      (∀ stop, s.foreach stop = some (Stack.visit stop xs)) ∧ s.free = some (if d then xs else []) ∧
      (xs ≠ [] → ∀ (a : Answers) (x : α), ∃ s1 s2, s.pop = some (xs.head?, s1) ∧ s1.pushOom a (some x) = some s2 ∧
        s2.peek = some (some x) ∧ s2.items = xs.length) := by
  obtain ⟨s, xs, h1, hs, h2, h3, h4⟩ := AxlStack.runOom_spec ops (AxlStack.rep_new (α := α) d)
  refine ⟨s, xs, h1, hs, h2.items, AxlStack.isEmpty_spec h2, AxlStack.peek_spec h2, ?_, AxlStack.foreach_spec h2, ?_, ?_⟩
  · cases xs with
    | nil => simp [AxlStack.pop_nil h2]
    | cons x xs =>
      obtain ⟨s', g1, _⟩ := AxlStack.pop_cons h2
      simp [g1]
  · rw [AxlStack.free_spec h2, h3, h4]; rfl
  · intro hne a x
    cases xs with
    | nil => exact absurd rfl hne
    | cons y xs =>
      obtain ⟨s1, g1, g2, -⟩ := AxlStack.pop_cons h2
      obtain ⟨s2, k1, k2, -⟩ := AxlStack.push_spec g2 x
      refine ⟨s1, s2, g1, ?_, AxlStack.peek_spec k2, k2.items⟩
      have hlt : s1.size ≠ s1.items := by
        have e1 := h2.items
        have e2 := h2.le
        unfold AxlStack.pop at g1
        rw [AxlStack.isEmpty_spec h2] at g1
        cases hr : AxlStack.read { s with items := s.items - 1 } (s.items - 1) with
        | none => simp [hr] at g1
        | some v =>
          simp [hr] at g1
          rw [← g1.2]
          simp only [List.length_cons] at e1 ⊢
          omega
      unfold AxlStack.pushOom
      rw [if_neg (fun h => hlt h.2.1)]
      exact k1

example : ((AxlStack.new true).runOom [(.push (some 1), [true]), (.push (some 2), [false]), (.push (some 3), []), (.pop, []),
    (.push (some 4), [false])]).bind (fun s => s.free) = some [4, 1] := by decide +kernel

/-- **C70, binary stacks** (partial).  The same for the binary stack, if the array inside of it is always given: what may be
refused is a node.  Missing: the array, for which it is false (`C70_not_binary_stack`). -/
theorem C70_binary_stack_partial (ops : List (Stack.BOp × Answers)) (ha : ∀ op ∈ ops, op.2[1]? ≠ some false) :
    ∃ b xs, BinaryStack.new.runOom ops = some b ∧ Oom.BStackSteps [] ops xs ∧ b.size = xs.length ∧ b.isEmpty = xs.isEmpty ∧
      b.peek = some (xs.head?.getD false) ∧ b.pop.map Prod.fst = some (xs.head?.getD false) := by
  obtain ⟨b, ns, h1, hs, h2⟩ := BinaryStack.runOom_spec ops BinaryStack.rep_new ha
  refine ⟨b, _, h1, hs, h2.count, BinaryStack.isEmpty_spec h2, BinaryStack.peek_spec h2, ?_⟩
  obtain ⟨b', ns', g1, _⟩ := BinaryStack.pop_spec h2
  rw [g1]; rfl

example : (BinaryStack.new.runOom [(.push true, [true, true]), (.push false, [false]), (.push true, []), (.pop, [])]).bind (fun b =>
    b.peek.map fun p => (p, b.size)) = some (true, 1) := by decide +kernel

/-- **C70**: not of the code, binary stacks.  `axl_binary_stack_push` does not notice that `axl_stack_push` stored nothing: the
value is counted, but when it is popped the one that was pushed before it is lost. -/
theorem C70_not_binary_stack : ∃ b b' : BinaryStack,
    BinaryStack.new.runOom [(.push true, []), (.push false, [true, false])] = some b ∧ b.size = 2 ∧ b.pop = some (false, b') ∧
      b'.size = 1 ∧ b'.isEmpty = true ∧ b'.pop.map Prod.fst = some false := by
  refine ⟨_, _, rfl, by decide +kernel, rfl, by decide +kernel, by decide +kernel, by decide +kernel⟩

/-! ## Hash tables -/

/-- **C70, hash tables**.  An insertion in a table without slots that is refused them changes nothing. -/
theorem C70_hash_first_table (n : Nat) (m : MHash κ δ φ) (h : m.hashSize = 0) (a : Answers) (k : κ) (kd : Option φ) (d : Option δ)
    (dd : Option φ) : m.insertFullOom n (false :: a) k kd d dd = some m := by
  simp [MHash.insertFullOom, h, alloc]

example : ((MHash.newFull hashInt hashEqualInt 2 (fun _ => none) : Option (MHash Int Nat Nat)).map (·.hashSize)) = some 0 := by decide +kernel

variable [NullKey κ]

/-- **C70, hash tables** (partial).  After any history, a new key is inserted in a table that is full and memory to grow is
refused.  Lookups, existence, the number of items and the destroy calls made are those of the table before.  Missing: the pairs
visited, removals and the insertions that follow, for which it is false (the next theorems). -/
theorem C70_hash_growth_partial {hash : κ → Nat} {eq : κ → κ → Bool} (hc : Consistent hash eq) {step : Nat} (hs : 0 < step)
    (junk : Piece → Option Piece) (ops : List (Op κ δ φ)) {n : Nat} (hn : ops.length ≤ n) (e : Entry κ δ φ)
    (he : present eq ops.reverse e.key = none) (a : Answers) :
    ∃ (m0 m : MHash κ δ φ), MHash.newFull hash eq step junk = some m0 ∧ m0.run n ops = some m ∧
      (m.items ≠ 0 → m.hashSize = m.items → ∃ m', m.insertFullOom n (false :: a) e.key e.keyDestroy e.data e.dataDestroy = some m' ∧
        (∀ k, m'.get n k = some ((present eq ops.reverse k).bind (·.data))) ∧
        (∀ k, m'.exists n k = some (present eq ops.reverse k).isSome) ∧ m'.items = m.items ∧ m'.log = m.log) := by
  obtain ⟨m0, g0, r0⟩ := MHash.newFull_rel (δ := δ) (φ := φ) hash eq step junk
  obtain ⟨m, h, A, g1, g2, r, hh⟩ := MHash.run_rel (n := n) ops r0 (AxlHash.hist_new hc hs) (by simpa using hn)
  rw [List.append_nil] at hh
  have hA : A.flatten.length ≤ n := by
    have := MHash.hist_count hh
    rw [List.length_reverse] at this
    rw [r.count]
    omega
  refine ⟨m0, m, g0, g1, fun hi hf => ?_⟩
  have hl : h.lookup e.key = some none := by
    rw [AxlHash.lookup_spec hh.inv.toTInv]
    have := hh.look e.key
    rw [he, Option.map_eq_none_iff] at this
    rw [hh.equal_eq, this]
  obtain ⟨m', e1, e2⟩ := MHash.insertFullOom_refused r hA (by omega) hf hl a e.keyDestroy e.data e.dataDestroy
  exact ⟨m', e1, fun k => MHash.get_merged e2 hh.inv.toTInv hA (AxlHash.hist_get hh k),
    fun k => MHash.exists_merged e2 hh.inv.toTInv hA (AxlHash.hist_exists hh k), e2.items.trans r.items.symm, e2.log.trans r.log.symm⟩

/-- A table of two slots with two pairs, which is refused a third. -/
def Spec.Oom.full : Option (MHash Int Nat Nat) := do
  let m ← MHash.newFull hashInt hashEqualInt 2 fun _ => none
  m.run 2 [.insert ⟨4, none, some 1, none⟩, .insert ⟨5, none, some 2, none⟩]

/-- A table of twenty slots with so many pairs. -/
def Spec.Oom.dozen (k : Nat) : Option (MHash Int Nat Nat) := do
  let m ← MHash.newFull hashInt hashEqualInt 20 fun _ => none
  m.run 12 ((List.range k).map fun (i : Nat) => .insert ⟨i, none, some i, none⟩)

example : (Spec.Oom.full.map fun m => (m.items, m.hashSize)) = some (2, 2) ∧
    (Spec.Oom.full.bind fun m => m.insertFullOom 2 [false] 6 none (some 3) none).bind (fun m => m.get 2 5) = some (some 2) := by
  decide +kernel

/-- **C70**: not of the code, hash tables.  After that, if there are pairs in two different slots, no insertion of a new key in
the table is ever over, with any number of steps, even if now there is memory. -/
theorem C70_not_hash_growth_ends {hash : κ → Nat} {eq : κ → κ → Bool} (hc : Consistent hash eq) {step : Nat} (hs : 0 < step)
    (junk : Piece → Option Piece) (ops : List (Op κ δ φ)) {n : Nat} (hn : ops.length ≤ n) (e : Entry κ δ φ)
    (he : present eq ops.reverse e.key = none) (a : Answers) (x y : Entry κ δ φ) (hx : present eq ops.reverse x.key = some x)
    (hy : present eq ops.reverse y.key = some y) :
    ∃ (m0 m : MHash κ δ φ), MHash.newFull hash eq step junk = some m0 ∧ m0.run n ops = some m ∧
      (m.hashSize = m.items → hash x.key % m.hashSize ≠ hash y.key % m.hashSize →
        ∃ m', m.insertFullOom n (false :: a) e.key e.keyDestroy e.data e.dataDestroy = some m' ∧
          ∀ n', n ≤ n' → ∀ (a' : Answers) (e' : Entry κ δ φ), present eq ops.reverse e'.key = none →
            m'.insertFullOom n' a' e'.key e'.keyDestroy e'.data e'.dataDestroy = none) := by
  obtain ⟨m0, g0, r0⟩ := MHash.newFull_rel (δ := δ) (φ := φ) hash eq step junk
  obtain ⟨m, h, A, g1, g2, r, hh⟩ := MHash.run_rel (n := n) ops r0 (AxlHash.hist_new hc hs) (by simpa using hn)
  rw [List.append_nil] at hh
  have hA : A.flatten.length ≤ n := by
    have := MHash.hist_count hh
    rw [List.length_reverse] at this
    rw [r.count]
    omega
  refine ⟨m0, m, g0, g1, fun hf hxy => ?_⟩
  have node : ∀ z : Entry κ δ φ, present eq ops.reverse z.key = some z → ∃ v ∈ h.table.flatten, v.key = z.key := by
    intro z hz
    have := hh.look z.key
    rw [hz, Option.map_eq_some_iff] at this
    obtain ⟨v, hv, rfl⟩ := this
    exact ⟨v, List.mem_of_find?_eq_some hv, rfl⟩
  obtain ⟨vx, mx, kx⟩ := node x hx
  obtain ⟨vy, my, ky⟩ := node y hy
  have look : ∀ k, present eq ops.reverse k = none → h.lookup k = some none := by
    intro k hk
    rw [AxlHash.lookup_spec hh.inv.toTInv]
    have := hh.look k
    rw [hk, Option.map_eq_none_iff] at this
    rw [hh.equal_eq, this]
  have h0 : m.hashSize ≠ 0 := by
    rw [hf, r.items, hh.inv.items]
    intro e0
    rw [List.eq_nil_of_length_eq_zero e0] at mx
    cases mx
  obtain ⟨m', e1, e2⟩ := MHash.insertFullOom_refused r hA h0 hf (look _ he) a e.keyDestroy e.data e.dataDestroy
  have hs' : m'.hashSize = m.hashSize := e2.size.trans r.size.symm
  have hi' : m'.items = m.items := e2.items.trans r.items.symm
  refine ⟨m', e1, fun n' hn' a' e' he' => ?_⟩
  refine MHash.insertFullOom_hangs e2 hh.inv.toTInv (by omega) (by omega) mx my ?_ (look _ he') n' a' (by omega) _ _ _
  rw [kx, ky, hh.hash_eq, ← r.size]
  exact hxy

example : hashInt 4 % 2 ≠ hashInt 5 % 2 ∧
    ((Spec.Oom.full.bind fun m => m.insertFullOom 2 [false] 6 none (some 3) none).bind fun m =>
      m.insertFullOom 100 [] 7 none (some 4) none).isNone := by decide +kernel

/-- **C70**: not of the code, hash tables.  After that, a pair is visited twice; and when it is removed, looking up a key that
is not there and visiting the pairs follow a node that was given back. -/
theorem C70_not_hash_growth_visits : ∃ m m1 m2 : MHash Int Nat Nat, Spec.Oom.full = some m ∧
    m.insertFullOom 2 [false] 6 none (some 3) none = some m1 ∧
    m1.foreach 2 (fun _ _ => false) = some [(4, some 1), (5, some 2), (5, some 2)] ∧
    m1.remove 2 5 = some (true, m2) ∧ (∀ n, 2 ≤ n → m2.get n 6 = none) ∧ (∀ n, 2 ≤ n → m2.foreach n (fun _ _ => false) = none) := by
  refine ⟨_, _, _, rfl, rfl, by decide +kernel, rfl, ?_, ?_⟩
  · intro n hn
    match n, hn with
    | n + 2, _ => rfl
  · intro n hn
    match n, hn with
    | n + 2, _ => rfl

/-- **C70**: not of the code, hash tables.  Nothing that the factory of the nodes asks for is checked: creating a table is
undefined if it is refused its factory or the first block. -/
theorem C70_not_hash_new (hash : κ → Nat) (eq : κ → κ → Bool) (step : Nat) (junk : Piece → Option Piece) (a : Answers) :
    (MHash.newFullOom (true :: false :: a) hash eq step junk : Option (Option (MHash κ δ φ))) = none ∧
    (MHash.newFullOom (true :: true :: false :: a) hash eq step junk : Option (Option (MHash κ δ φ))) = none ∧
    (MHash.newFullOom (false :: a) hash eq step junk : Option (Option (MHash κ δ φ))) = some none := ⟨rfl, rfl, rfl⟩

example : ((MHash.newFullOom [true, true, true, true] hashInt hashEqualInt 2 (fun _ => none) : Option (Option (MHash Int Nat Nat))).isSome) := by
  decide +kernel

/-- **C70**: not of the code, hash tables.  If the nodes of the first block are refused, the table is created; the first
insertion is lost, and the next one is undefined, even if there is memory for both. -/
theorem C70_not_hash_block : ∃ m m1 : MHash Int Nat Nat,
    MHash.newFullOom [true, true, true, false] hashInt hashEqualInt 2 (fun _ => none) = some (some m) ∧
    m.insertFullOom 5 [] 4 none (some 1) none = some m1 ∧ m1.exists 5 4 = some false ∧
    m1.insertFullOom 5 [] 5 none (some 2) none = none := by
  refine ⟨_, _, rfl, rfl, by decide +kernel, rfl⟩

/-- **C70**: not of the code, hash tables.  Removing a pair asks for memory, and is undefined if it is refused. -/
theorem C70_not_hash_remove : ∃ m : MHash Int Nat Nat, Spec.Oom.full = some m ∧ m.removeOom 2 [false] 4 = none ∧
    ((m.removeOom 2 [true] 4).map (·.1)) = some true := by
  refine ⟨_, rfl, rfl, rfl⟩

/-- **C70, hash tables**.  After any history, removing a key that is not there asks for no memory and changes nothing. -/
theorem C70_hash_remove_absent {hash : κ → Nat} {eq : κ → κ → Bool} (hc : Consistent hash eq) {step : Nat} (hs : 0 < step)
    (junk : Piece → Option Piece) (ops : List (Op κ δ φ)) {n : Nat} (hn : ops.length ≤ n) (k : κ)
    (hk : present eq ops.reverse k = none) (a : Answers) : ∃ m0 m m' : MHash κ δ φ, MHash.newFull hash eq step junk = some m0 ∧
      m0.run n ops = some m ∧ m.removeOom n a k = some (false, m') ∧ m.remove n k = some (false, m') := by
  obtain ⟨m0, g0, r0⟩ := MHash.newFull_rel (δ := δ) (φ := φ) hash eq step junk
  obtain ⟨m, h, A, g1, g2, r, hh⟩ := MHash.run_rel (n := n) ops r0 (AxlHash.hist_new hc hs) (by simpa using hn)
  rw [List.append_nil] at hh
  have hA : A.flatten.length ≤ n := by
    have := MHash.hist_count hh
    rw [List.length_reverse] at this
    rw [r.count]
    omega
  obtain ⟨h', k1, -⟩ := AxlHash.hist_remove hh k true false
  rw [hk] at k1
  have k2 : h.remove k = some (false, h') := by
    unfold AxlHash.remove
    rw [k1]; rfl
  obtain ⟨m', A', k3, -⟩ := MHash.remove_rel r hA k2
  exact ⟨m0, m, m', g0, g1, by simp [MHash.removeOom, k3], k3⟩

example : (Spec.Oom.full.bind fun m => m.removeOom 2 [false] 9).map (·.1) = some false := by decide +kernel

/-- **C70, hash tables**.  How often that is: with twelve pairs, the first removal asks for memory, the next nine do not, and the
eleventh does. -/
theorem C70_hash_remove_asks : ∃ m m1 m10 : MHash Int Nat Nat, Spec.Oom.dozen 12 = some m ∧ (m.removeOom 12 [true] 0).map (·.2) = some m1 ∧
    (m.removeOom 12 [false] 0).isNone ∧
    ([1, 2, 3, 4, 5, 6, 7, 8, 9].foldlM (fun m k => (MHash.removeOom 12 m [false] k).map (·.2)) m1) = some m10 ∧
    (m10.removeOom 12 [false] 10).isNone ∧ (m10.removeOom 12 [true] 10).isSome := by
  refine ⟨_, _, _, rfl, rfl, by decide +kernel, rfl, by decide +kernel, by decide +kernel⟩

/-- **C70**: not of the code, hash tables.  When the nodes of a block are all in use, an insertion asks for another.  If it is
refused the call is undefined; if its nodes are refused the insertion is lost, the pairs are those that there were, and the next
insertion is undefined even if there is memory. -/
theorem C70_not_hash_next_block : ∃ m m1 : MHash Int Nat Nat, Spec.Oom.dozen 6 = some m ∧
    m.insertFullOom 12 [false] 20 none (some 3) none = none ∧
    m.insertFullOom 12 [true, false] 20 none (some 3) none = some m1 ∧ m1.exists 12 20 = some false ∧
    m1.foreach 12 (fun _ _ => false) = m.foreach 12 (fun _ _ => false) ∧ m1.insertFullOom 12 [] 21 none (some 4) none = none := by
  refine ⟨_, _, rfl, rfl, rfl, by decide +kernel, by decide +kernel, rfl⟩

example : ((Spec.Oom.dozen 6).bind fun m => m.insertFullOom 12 [] 20 none (some 3) none).bind (fun m => m.get 12 20) = some (some 3) := by
  decide +kernel

/-! ## Memory that is given -/

/-- **C70**.  If the system gives all that is asked for, these containers are those of the other properties: each history runs
in the same way. -/
theorem C70_memory_given : (∀ (l : AxlList α) (ops : List (Seq.Op α × Answers)), (∀ op ∈ ops, false ∉ op.2) →
      l.runOom ops = l.run (ops.map Prod.fst)) ∧
    (∀ (s : AxlStack α) (ops : List (Stack.Op α × Answers)), (∀ op ∈ ops, false ∉ op.2) → s.runOom ops = s.run (ops.map Prod.fst)) ∧
    (∀ (b : BinaryStack) (ops : List (Stack.BOp × Answers)), (∀ op ∈ ops, false ∉ op.2) → b.runOom ops = b.run (ops.map Prod.fst)) :=
  ⟨fun l ops h => AxlList.runOom_given ops l h, fun s ops h => AxlStack.runOom_given ops s h,
    fun b ops h => BinaryStack.runOom_given ops b h⟩

/-- **C70**.  And so is the hash table, in any state that a history reaches. -/
theorem C70_hash_memory_given {hash : κ → Nat} {eq : κ → κ → Bool} (hc : Consistent hash eq) {step : Nat} (hs : 0 < step)
    (junk : Piece → Option Piece) (ops : List (Op κ δ φ)) {n : Nat} (hn : ops.length ≤ n) (e : Entry κ δ φ) (a : Answers)
    (ha : false ∉ a) : ∃ m0 m m' : MHash κ δ φ, MHash.newFullOom a hash eq step junk = some (some m0) ∧
      MHash.newFull hash eq step junk = some m0 ∧ m0.run n ops = some m ∧
      m.insertFullOom n a e.key e.keyDestroy e.data e.dataDestroy = some m' ∧ m.exec n (.insert e) = some m' ∧
      ∀ k, m.removeOom n a k = m.remove n k := by
  obtain ⟨m0, g0, r0⟩ := MHash.newFull_rel (δ := δ) (φ := φ) hash eq step junk
  obtain ⟨m, h, A, g1, g2, r, hh⟩ := MHash.run_rel (n := n) ops r0 (AxlHash.hist_new hc hs) (by simpa using hn)
  rw [List.append_nil] at hh
  have hA : A.flatten.length ≤ n := by
    have := MHash.hist_count hh
    rw [List.length_reverse] at this
    rw [r.count]
    omega
  obtain ⟨h', k1, -⟩ := AxlHash.hist_exec hh (.insert e)
  obtain ⟨m', A', k2, -⟩ := MHash.exec_rel r hA (AxlHash.table_nil hh.inv.toTInv) k1
  obtain ⟨a1, a2⟩ := MHash.alloc_given ha
  obtain ⟨a3, a4⟩ := MHash.alloc_given a2
  obtain ⟨a5, a6⟩ := MHash.alloc_given a4
  obtain ⟨a7, -⟩ := MHash.alloc_given a6
  refine ⟨m0, m, m', ?_, g0, g1, ?_, k2, ?_⟩
  · unfold MHash.newFull at g0
    unfold MHash.newFullOom Factory.createOom
    simp only [a1, a3, a5, a7, if_true, Bool.and_self]
    cases hf : Factory.create MHash.nodeSize with
    | none => rw [hf] at g0; cases g0
    | some f =>
      rw [hf] at g0
      simp only [Option.bind_eq_bind, Option.bind_some, Option.some.injEq] at g0 ⊢
      exact g0
  · exact (MHash.insertFullOom_given r hA ha k1).trans k2
  · intro k
    unfold MHash.removeOom
    cases hr : m.remove n k with
    | none => rfl
    | some t => simp [a1]

end Axl
