/-
Properties C01-C06: axlList.
-/
import Verif.Proofs.ListOrder

namespace Axl
open Spec.Seq
namespace AxlList
variable {α : Type}

/-! ## C01 -/

/-- **C01**.  A new list, after any sequence of add/append/prepend/add_at/remove/unlink calls, with
any comparison function: no call has undefined behaviour or fails to return, and the list answers
every query exactly as the sequence obtained by the abstract operations. -/
theorem C01_list_is_sequence (eq : α → α → Int) (d : Bool) (ops : List (Op α)) :
    ∃ l s, (new eq d).run ops = some l ∧ Steps eq {} ops s ∧ Observes l s.elems := by
  obtain ⟨l, s, h1, h2, h3⟩ := run_spec ops (agrees_new eq d)
  obtain ⟨ns, h4, h5⟩ := h3.rep
  exact ⟨l, s, h1, h2, h5 ▸ observes_of_rep h4⟩

/-- A concrete history: prepend, append, insert in the middle, remove. -/
example : ((new equalInt true).run [.append 1, .append 2, .prepend 0, .addAt 9 2, .take 1 true,
    .takeAt 7 true]).bind (fun l => l.getNth 1) = some (some 9) := by decide

/-! ## C02 -/

/-- **C02**.  With a comparison that orders elements, a list filled only with `axl_list_add` (and
any removals) is strictly ordered, hence has no two equal elements. -/
theorem C02_add_keeps_order (eq : α → α → Int) (ho : IsOrder eq) (d : Bool) (ops : List (Op α))
    (hk : ∀ op ∈ ops, (∃ x, op = .add x) ∨ (∃ b, op = .takeFirst b) ∨ (∃ b, op = .takeLast b) ∨
      (∃ p b, op = .takeAt p b) ∨ (∃ x b, op = .take x b)) :
    ∃ l xs, (new eq d).run ops = some l ∧ Observes l xs ∧ xs.Pairwise (fun a b => eq a b = 1) := by
  obtain ⟨l, s, h1, h2, h3⟩ := run_spec ops (agrees_new eq d)
  obtain ⟨ns, h4, h5⟩ := h3.rep
  refine ⟨l, s.elems, h1, h5 ▸ observes_of_rep h4, steps_sorted ho h2 ?_ (by simp)⟩
  intro op hop
  rcases hk op hop with ⟨x, rfl⟩ | ⟨b, rfl⟩ | ⟨b, rfl⟩ | ⟨p, b, rfl⟩ | ⟨x, b, rfl⟩ <;> rfl

/-- **C02**.  ... and it stores exactly one representative of each element added. -/
theorem C02_add_stores_each_once (eq : α → α → Int) (ho : IsOrder eq) (d : Bool) (xs : List α) :
    ∃ l ys, (new eq d).run (xs.map Op.add) = some l ∧ Observes l ys ∧
      ys.Pairwise (fun a b => eq a b = 1) ∧ (∀ y ∈ ys, y ∈ xs) ∧
      (∀ x ∈ xs, ∃ y ∈ ys, eq y x = 0) := by
  obtain ⟨l, s, h1, h2, h3⟩ := run_spec (xs.map Op.add) (agrees_new eq d)
  obtain ⟨ns, h4, h5⟩ := h3.rep
  obtain ⟨_, a2, a3⟩ := steps_adds ho xs h2
  refine ⟨l, s.elems, h1, h5 ▸ observes_of_rep h4, steps_sorted ho h2 ?_ (by simp), ?_, a3⟩
  · intro op hop
    obtain ⟨x, _, rfl⟩ := List.mem_map.1 hop
    rfl
  · intro y hy
    rcases a2 y hy with h | h
    · simp at h
    · exact h

/-- The library's integer comparison orders, from the greatest to the least. -/
theorem C02_equal_int_orders : IsOrder equalInt ∧ ∀ a b, equalInt a b = 1 ↔ b < a :=
  ⟨isOrder_equalInt, fun a b => by unfold equalInt; split <;> (try split) <;> omega⟩

/-- The library's string order comparison orders, from the least to the greatest. -/
theorem C02_order_string_orders : IsOrder orderString ∧ ∀ a b, orderString a b = 1 ↔ strcmp a b = -1 :=
  ⟨isOrder_orderString, fun a b => by rw [orderString_eq]; omega⟩

/-- With `axl_list_always_return_1`, adding is appending. -/
theorem C02_always_return_1_appends (d : Bool) (xs : List α) :
    ∃ l, (new alwaysReturn1 d).run (xs.map Op.add) = some l ∧ Observes l xs := by
  obtain ⟨l, s, h1, h2, h3⟩ := run_spec (xs.map Op.add) (agrees_new alwaysReturn1 d)
  obtain ⟨ns, h4, h5⟩ := h3.rep
  have := steps_adds_append (eq := alwaysReturn1) xs (s := ({} : State α)) (by
    rw [List.pairwise_iff_forall_sublist]; intros; rfl) h2
  refine ⟨l, h1, ?_⟩
  have e : s.elems = xs := by rw [this]; simp
  rw [← e, ← h5]
  exact observes_of_rep h4

/-- The code disagrees with the expectation for `axl_list_equal_string`: that comparison does not
order, and an equal string in the middle of the list is not noticed, so it is stored twice. -/
theorem C02_equal_string_stores_duplicate :
    ∃ xs : List (List Char), ∃ l, (new equalString true).run (xs.map Op.add) = some l ∧
      l.getNth 1 = some (some ['b']) ∧ l.getNth 3 = some (some ['b']) :=
  ⟨[['a'], ['b'], ['c'], ['b']], _, rfl, by decide, by decide⟩

example : IsOrder equalInt ∧
    ((new equalInt true).run ([3, 1, 2, 3].map Op.add)).bind (fun l => l.getNth 1) = some (some 2) :=
  ⟨isOrder_equalInt, by decide⟩

/-! ## C03 -/

/-- **C03**.  `axl_list_remove`/`axl_list_unlink` take out the first element that compares equal
and nothing else, whatever the history of the list, and do nothing when there is none. -/
theorem C03_remove_first_equal (eq : α → α → Int) (d : Bool) (ops : List (Op α)) (x : α) (b : Bool) :
    ∃ l l' xs, (new eq d).run ops = some l ∧ Observes l xs ∧ l.remove x b = some l' ∧
      Observes l' (xs.eraseP fun y => eq y x == 0) := by
  obtain ⟨l, s, h1, h2, h3⟩ := run_spec ops (agrees_new eq d)
  obtain ⟨ns, h4, h5⟩ := h3.rep
  obtain ⟨l', ns', g1, g2, g3⟩ := remove_spec h4 x b
  refine ⟨l, l', s.elems, h1, h5 ▸ observes_of_rep h4, g1, ?_⟩
  rw [h5, h3.areEqual] at g2
  exact g2 ▸ observes_of_rep g3.rep

/-- **C03**.  `axl_list_remove_ptr`/`axl_list_unlink_ptr` take out the first occurrence of the
pointer. -/
theorem C03_remove_ptr [DecidableEq α] (eq : α → α → Int) (d : Bool) (ops : List (Op α)) (x : α) (b : Bool) :
    ∃ l l' xs, (new eq d).run ops = some l ∧ Observes l xs ∧ l.removePtr x b = some l' ∧
      Observes l' (xs.erase x) := by
  obtain ⟨l, s, h1, h2, h3⟩ := run_spec ops (agrees_new eq d)
  obtain ⟨ns, h4, h5⟩ := h3.rep
  obtain ⟨l', ns', g1, g2, g3⟩ := removePtr_spec h4 x b
  refine ⟨l, l', s.elems, h1, h5 ▸ observes_of_rep h4, g1, ?_⟩
  rw [h5] at g2
  exact g2 ▸ observes_of_rep g3.rep

/-- **C03**.  `axl_list_exists` never answers true for an absent element, for any comparison and
any history. -/
theorem C03_exists_sound (eq : α → α → Int) (d : Bool) (ops : List (Op α)) (x : α) :
    ∃ l xs r, (new eq d).run ops = some l ∧ Observes l xs ∧ l.exists_ x = some r ∧
      (r = true → ∃ y ∈ xs, eq y x = 0) := by
  obtain ⟨l, s, h1, h2, h3⟩ := run_spec ops (agrees_new eq d)
  obtain ⟨ns, h4, h5⟩ := h3.rep
  refine ⟨l, s.elems, _, h1, h5 ▸ observes_of_rep h4, exists_spec h4 x, ?_⟩
  intro h
  have := existsAnswer_sound h
  rwa [h5, h3.areEqual] at this

/-- **C03** (partial).  `axl_list_exists` answers whether an equal element is stored, for lists with
an ordering comparison filled with `axl_list_add`.  Missing: lists with `axl_list_equal_string`,
`axl_list_equal_ptr` or filled by position, for which the answer is wrong (next theorems). -/
theorem C03_exists_partial (eq : α → α → Int) (ho : IsOrder eq) (d : Bool) (ops : List (Op α))
    (hk : ∀ op ∈ ops, (∃ x, op = .add x) ∨ (∃ b, op = .takeFirst b) ∨ (∃ b, op = .takeLast b) ∨
      (∃ p b, op = .takeAt p b) ∨ (∃ x b, op = .take x b)) (x : α) :
    ∃ l xs r, (new eq d).run ops = some l ∧ Observes l xs ∧ l.exists_ x = some r ∧
      (r = true ↔ ∃ y ∈ xs, eq y x = 0) := by
  obtain ⟨l, s, h1, h2, h3⟩ := run_spec ops (agrees_new eq d)
  obtain ⟨ns, h4, h5⟩ := h3.rep
  refine ⟨l, s.elems, _, h1, h5 ▸ observes_of_rep h4, exists_spec h4 x, ?_⟩
  rw [h5, h3.areEqual]
  apply existsAnswer_sorted ho
  refine steps_sorted ho h2 ?_ (by simp)
  intro op hop
  rcases hk op hop with ⟨x, rfl⟩ | ⟨b, rfl⟩ | ⟨b, rfl⟩ | ⟨p, b, rfl⟩ | ⟨x, b, rfl⟩ <;> rfl

/-- `axl_list_exists` is wrong with `axl_list_equal_string`: an element in the middle is stored
but not found. -/
theorem C03_exists_false_for_equal_string :
    ∃ (l : AxlList (List Char)), (new equalString true).run [.append ['a'], .append ['b'], .append ['c']] = some l ∧
      l.getNth 1 = some (some ['b']) ∧ l.exists_ ['b'] = some false := ⟨_, rfl, by decide, by decide⟩

/-- With any comparison that answers 0 or 1 (as `axl_list_equal_string`), `axl_list_exists` looks
only at the first and the last element. -/
theorem C03_exists_only_ends (eq : α → α → Int) (h01 : ∀ a b, eq a b = 0 ∨ eq a b = 1) (d : Bool)
    (ops : List (Op α)) (x : α) :
    ∃ l xs r, (new eq d).run ops = some l ∧ Observes l xs ∧ l.exists_ x = some r ∧
      (r = true ↔ (∃ y, xs.head? = some y ∧ eq y x = 0) ∨ (∃ y, xs.getLast? = some y ∧ eq y x = 0)) := by
  obtain ⟨l, s, h1, h2, h3⟩ := run_spec ops (agrees_new eq d)
  obtain ⟨ns, h4, h5⟩ := h3.rep
  refine ⟨l, s.elems, _, h1, h5 ▸ observes_of_rep h4, exists_spec h4 x, ?_⟩
  rw [h5, h3.areEqual]
  cases s.elems with
  | nil => simp [existsAnswer]
  | cons y t =>
    rw [List.getLast?_eq_some_getLast (by simp)]
    simp only [existsAnswer, List.head?_cons, Option.some.injEq, exists_eq_left']
    generalize (y :: t).getLast (by simp) = w
    rcases h01 y x with h | h <;> rcases h01 w x with g | g <;> simp [h, g]

/-- With `axl_list_equal_ptr`, `axl_list_exists` looks only at the first element. -/
theorem C03_exists_equal_ptr_only_first [DecidableEq α] (d : Bool) (ops : List (Op α)) (x : α) :
    ∃ l xs r, (new equalPtr d).run ops = some l ∧ Observes l xs ∧ l.exists_ x = some r ∧
      (r = true ↔ xs.head? = some x) := by
  obtain ⟨l, s, h1, h2, h3⟩ := run_spec ops (agrees_new equalPtr d)
  obtain ⟨ns, h4, h5⟩ := h3.rep
  refine ⟨l, s.elems, _, h1, h5 ▸ observes_of_rep h4, exists_spec h4 x, ?_⟩
  rw [h5, h3.areEqual]
  cases s.elems with
  | nil => simp [existsAnswer]
  | cons y t =>
    by_cases e : y = x <;> simp [existsAnswer, equalPtr, e]

example : ((new orderString true).run ([['b'], ['a'], ['c']].map Op.add)).bind
    (fun l => l.exists_ ['b']) = some true := by decide

/-! ## C04 -/

/-- **C04**.  With a destroy function, over the whole life of a list (any history, then
`axl_list_free`), the destroy function is called on: the elements taken out by `remove` calls, in
order, then the elements still stored, in order; and every element stored over the life of the
list was either destroyed once or handed back by an `unlink` call. -/
theorem C04_destroy_exactly_once (eq : α → α → Int) (ops : List (Op α)) :
    ∃ l s m, (new eq true).run ops = some l ∧ Steps eq {} ops s ∧
      l.free = some (m, s.destroyed ++ s.elems) ∧
      (s.destroyed ++ s.elems ++ s.unlinked).Perm s.entered := by
  obtain ⟨l, s, h1, h2, h3⟩ := run_spec ops (agrees_new eq true)
  obtain ⟨ns, h4, h5⟩ := h3.rep
  obtain ⟨m, g1, _⟩ := free_spec h4
  refine ⟨l, s, m, h1, h2, ?_, ?_⟩
  · rw [g1, h3.destroyed, h3.hasDestroy, h5]; rfl
  · exact steps_perm h2 (by simp)

/-- **C04**.  Without a destroy function nothing is ever destroyed. -/
theorem C04_no_destroy_function (eq : α → α → Int) (ops : List (Op α)) :
    ∃ l m, (new eq false).run ops = some l ∧ l.free = some (m, []) := by
  obtain ⟨l, s, h1, h2, h3⟩ := run_spec ops (agrees_new eq false)
  obtain ⟨ns, h4, h5⟩ := h3.rep
  obtain ⟨m, g1, _⟩ := free_spec h4
  refine ⟨l, m, h1, ?_⟩
  rw [g1, h3.destroyed, h3.hasDestroy]; rfl

/-- A concrete life of a list: 1 removed, 2 unlinked, 0 and 3 destroyed by the final free. -/
example : (((new equalInt true).run [.append 1, .append 2, .append 3, .prepend 0, .takeAt 1 true,
    .take 2 false]).bind (fun l => l.free)).map Prod.snd = some [1, 0, 3] := by decide

/-! ## C05 -/

/-- **C05**.  Copying an ordered list gives a list with the same elements in the same order (with
`func` applied to each), provided `func` keeps the order; the copy destroys elements iff a
duplicate function was given. -/
theorem C05_copy_ordered (eq : α → α → Int) (d : Bool) (ops : List (Op α)) (func : Option (α → α))
    (l : AxlList α) (xs : List α) (hl : (new eq d).run ops = some l) (hx : Observes l xs)
    (hp : (xs.map (func.getD id)).Pairwise (fun a b => eq a b = 1)) :
    ∃ l', l.copy func = some l' ∧ Observes l' (xs.map (func.getD id)) ∧
      l'.hasDestroy = (func.isSome && d) := by
  obtain ⟨l0, s, h1, h2, h3⟩ := run_spec ops (agrees_new eq d)
  rw [hl] at h1; cases h1
  obtain ⟨ns, h4, h5⟩ := h3.rep
  have hxs : xs = ns.map Prod.snd := by
    apply List.ext_getElem?
    intro k
    have a := hx.nth k
    have b := (observes_of_rep h4).nth k
    rw [a] at b
    simpa using b
  rw [copy_spec h4, h3.areEqual, h3.hasDestroy, ← hxs]
  obtain ⟨l', s', g1, g2, g3⟩ := run_spec ((xs.map (func.getD id)).map Op.add)
    (agrees_new eq (if func.isNone then false else d))
  have e := steps_adds_append (eq := eq) _ (s := ({} : State α)) (by simpa using hp) g2
  obtain ⟨ns', g4, g5⟩ := g3.rep
  refine ⟨l', g1, ?_, ?_⟩
  · have : ns'.map Prod.snd = xs.map (func.getD id) := by rw [g5, e]; simp
    exact this ▸ observes_of_rep g4
  · rw [g3.hasDestroy]; cases func <;> simp

/-- **C05**.  Lists with the appending comparison (`axl_list_always_return_1`): the copy always has
the images of the elements in the same order. -/
theorem C05_copy_appending (d : Bool) (ops : List (Op α)) (func : Option (α → α)) :
    ∃ l l' xs, (new alwaysReturn1 d).run ops = some l ∧ Observes l xs ∧
      l.copy func = some l' ∧ Observes l' (xs.map (func.getD id)) := by
  obtain ⟨l, s, h1, h2, h3⟩ := run_spec ops (agrees_new (α := α) alwaysReturn1 d)
  obtain ⟨ns, h4, h5⟩ := h3.rep
  have hx : Observes l s.elems := h5 ▸ observes_of_rep h4
  obtain ⟨l', g1, g2, _⟩ := C05_copy_ordered alwaysReturn1 d ops func l s.elems h1 hx (by
    rw [List.pairwise_iff_forall_sublist]; intros; rfl)
  exact ⟨l, l', s.elems, h1, hx, g1, g2⟩

/-- The code disagrees with the expectation for `axl_list_equal_ptr`: copying a list of distinct
pointers reverses it. -/
theorem C05_copy_equal_ptr_reverses [DecidableEq α] (d : Bool) (ops : List (Op α))
    (l : AxlList α) (xs : List α) (hl : (new equalPtr d).run ops = some l) (hx : Observes l xs)
    (hnd : xs.Nodup) :
    ∃ l', l.copy none = some l' ∧ Observes l' xs.reverse := by
  obtain ⟨l0, s, h1, h2, h3⟩ := run_spec ops (agrees_new equalPtr d)
  rw [hl] at h1; cases h1
  obtain ⟨ns, h4, h5⟩ := h3.rep
  have hxs : xs = ns.map Prod.snd := by
    apply List.ext_getElem?
    intro k
    have a := hx.nth k
    have b := (observes_of_rep h4).nth k
    rw [a] at b
    simpa using b
  rw [copy_spec h4, h3.areEqual, ← hxs]
  simp only [Option.getD_none, List.map_id_fun, id_eq]
  obtain ⟨l', s', g1, g2, g3⟩ := run_spec (xs.map Op.add) (agrees_new equalPtr (if (none : Option (α → α)).isNone then false else l.hasDestroy))
  have e := steps_adds_prepend (eq := equalPtr) xs (s := ({} : State α)) (by
    simp only [List.append_nil]
    rw [List.pairwise_reverse]
    refine List.Pairwise.imp ?_ hnd
    intro a b hab
    simp [equalPtr, hab]) g2
  obtain ⟨ns', g4, g5⟩ := g3.rep
  refine ⟨l', g1, ?_⟩
  have : ns'.map Prod.snd = xs.reverse := by rw [g5, e]; simp
  exact this ▸ observes_of_rep g4

example : (((new equalInt true).run ([5, 7, 6].map Op.add)).bind (fun l => l.copy (some id))).bind
    (fun l => l.getNth 2) = some (some 5) := by decide

example : (((new equalPtr true).run [Op.append 5, .append 7]).bind (fun l => l.copy none)).bind
    (fun l => l.getNth 0) = some (some 7) := by decide

/-! ## C06 -/

/-- **C06**.  A cursor over a list with any history, after any sequence of cursor operations
(including removals through it), stands where the abstract cursor stands and every query on it
answers accordingly; the list observed through it has exactly the remaining elements. -/
theorem C06_cursor (eq : α → α → Int) (d : Bool) (ops : List (Op α)) (cops : List CursorOp) :
    ∃ l xs c s, (new eq d).run ops = some l ∧ Observes l xs ∧
      (cursorNew l).run cops = some c ∧
      s = cops.foldl CursorState.step ⟨xs, if xs = [] then none else some 0, []⟩ ∧
      Observes c.list s.elems ∧
      c.get = some s.item ∧ c.hasItem = s.pos.isSome ∧
      c.hasNext = some (s.pos.elim false fun i => decide (i + 1 < s.elems.length)) ∧
      c.hasPrevious = some (s.pos.elim false fun i => decide (0 < i)) ∧
      c.list.destroyed = l.destroyed ++ (if d then s.destroyed else []) := by
  obtain ⟨l, s, h1, h2, h3⟩ := run_spec ops (agrees_new eq d)
  obtain ⟨ns, h4, h5⟩ := h3.rep
  have hc := cursorNew_spec h4
  have hnil : ns = [] ↔ s.elems = [] := by rw [← h5]; simp
  have hag : CAgrees d l.destroyed (cursorNew l) ⟨s.elems, if s.elems = [] then none else some 0, []⟩ :=
    ⟨⟨ns, by simpa [hnil] using hc, h5⟩, h3.hasDestroy, by simp [cursorNew]⟩
  obtain ⟨c, g1, g2⟩ := crun_spec cops hag
  obtain ⟨ns', g3, g4⟩ := g2.rep
  refine ⟨l, s.elems, c, _, h1, h5 ▸ observes_of_rep h4, g1, rfl, g4 ▸ observes_of_rep g3.rep, ?_, ?_, ?_, ?_,
    g2.destroyed⟩
  · rw [get_spec g3, g4]; rfl
  · exact hasItem_spec g3
  · rw [hasNext_spec g3, ← g4]
    cases (List.foldl CursorState.step _ cops).pos <;> simp
  · rw [hasPrevious_spec g3]
    cases (List.foldl CursorState.step _ cops).pos <;> simp

example : (((new equalInt true).run [.append 1, .append 2, .append 3]).bind
    (fun l => (cursorNew l).run [.next, .take true, .previous])).bind (fun c => c.get) = some (some 1) := by
  decide

end AxlList
end Axl
