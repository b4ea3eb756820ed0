/-
Every history of list operations follows the abstract operations.
-/
import Verif.Proofs.ListOps
import Verif.Spec.ListApi

namespace Axl
open Spec.Seq
namespace AxlList
variable {α : Type}

theorem map_eraseIdx' {β : Type} (f : α → β) (l : List α) (k : Nat) :
    (l.eraseIdx k).map f = (l.map f).eraseIdx k := by
  induction l generalizing k with
  | nil => rfl
  | cons a t ih => cases k <;> simp [ih]

theorem perm_eraseIdx {l : List α} {k : Nat} {x : α} (h : l[k]? = some x) :
    l.Perm (x :: l.eraseIdx k) := by
  induction l generalizing k with
  | nil => simp at h
  | cons a t ih =>
    cases k with
    | zero => simp at h; simp [h]
    | succ k =>
      simp at h
      exact (List.Perm.cons a (ih h)).trans (List.Perm.swap x a _)

theorem readsForward_of {c : Cursor α} {ns : List (Nat × α)} (i : Nat) (hi : i ≤ ns.length)
    (h : CRep c ns (if i < ns.length then some i else none)) :
    ReadsForward c ((ns.map Prod.snd).drop i) := by
  by_cases hlt : i < ns.length
  · rw [if_pos hlt] at h
    have hlt' : i < (ns.map Prod.snd).length := by simpa using hlt
    rw [List.drop_eq_getElem_cons hlt']
    obtain ⟨c', h1, _, h2⟩ := next_spec h
    refine ReadsForward.item (by rw [hasItem_spec h]; rfl) (by rw [get_spec h]; simp [hlt]) h1 ?_
    exact readsForward_of (i + 1) hlt (by simpa using h2)
  · rw [if_neg hlt] at h
    rw [List.drop_of_length_le (by simp; omega)]
    exact ReadsForward.done (by rw [hasItem_spec h]; rfl)
termination_by ns.length - i

theorem readsBackward_of {c : Cursor α} {ns : List (Nat × α)} (i : Nat) (hi : i ≤ ns.length)
    (h : CRep c ns (if i = 0 then none else some (i - 1))) :
    ReadsBackward c ((ns.map Prod.snd).take i).reverse := by
  induction i generalizing c with
  | zero => exact ReadsBackward.done (by rw [hasItem_spec h]; rfl)
  | succ i ih =>
    simp only [Nat.add_eq_zero_iff, Nat.succ_ne_self, and_false, if_false, Nat.add_sub_cancel] at h
    have hlt' : i < (ns.map Prod.snd).length := by simp; omega
    rw [List.take_succ_eq_append_getElem hlt', List.reverse_append]
    obtain ⟨c', h1, _, h2⟩ := previous_spec h
    refine ReadsBackward.item (by rw [hasItem_spec h]; rfl) (by rw [get_spec h]; simp [List.getElem?_eq_getElem, show i < ns.length by omega]) h1 ?_
    exact ih (by omega) (by simpa using h2)

theorem observes_of_rep {l : AxlList α} {ns : List (Nat × α)} (h : Rep l ns) :
    Observes l (ns.map Prod.snd) where
  length := by rw [h.len]; simp
  isEmpty := isEmpty_spec h
  first := getFirst_spec h
  last := getLast_spec h
  nth k := by rw [getNth_spec h, if_neg (by omega)]; simp
  nthNeg k hk := by rw [getNth_spec h, if_pos hk]
  lookup f := lookup_spec h f
  forward := by
    have hc := cursorNew_spec h
    have := readsForward_of (c := cursorNew l) (ns := ns) 0 (by omega) (by
      cases ns with
      | nil => exact hc
      | cons a t => simpa using hc)
    simpa using this
  backward := by
    have hc := toLast_spec (cursorNew_spec h)
    have := readsBackward_of (c := (cursorNew l).toLast) (ns := ns) ns.length (by omega) (by
      cases ns with
      | nil => exact hc
      | cons a t => simpa using hc)
    rwa [List.take_of_length_le (by simp)] at this

/-- The real list `l` agrees with the abstract state `s`. -/
structure Agrees (eq : α → α → Int) (d : Bool) (l : AxlList α) (s : State α) : Prop where
  rep : ∃ ns, Rep l ns ∧ ns.map Prod.snd = s.elems
  areEqual : l.areEqual = eq
  hasDestroy : l.hasDestroy = d
  destroyed : l.destroyed = if d then s.destroyed else []

theorem agrees_leave {eq : α → α → Int} {d : Bool} {l l' : AxlList α} {s : State α} {ns' : List (Nat × α)}
    {dd : Bool} {o : Option α} {xs : List α} (h : Agrees eq d l s) (hr : Removed l l' ns' dd o)
    (hx : ns'.map Prod.snd = xs) (ho : o = none → xs = s.elems) : Agrees eq d l' (s.leave o dd xs) := by
  have h1 := h.areEqual; have h2 := h.hasDestroy; have h3 := h.destroyed
  refine ⟨⟨ns', hr.rep, ?_⟩, by rw [hr.areEqual, h1], by rw [hr.hasDestroy, h2], ?_⟩
  · cases o with
    | none => simp only [State.leave]; rw [hx, ho rfl]
    | some x => cases dd <;> simpa [State.leave] using hx
  · rw [hr.destroyed, h2, h3]
    cases o <;> cases dd <;> cases d <;> simp [State.leave]

theorem agrees_enter {eq : α → α → Int} {d : Bool} {l l' : AxlList α} {s : State α} {ns' : List (Nat × α)}
    {x : α} {xs : List α} (h : Agrees eq d l s) (hr : Rep l' ns') (hs : Same l l')
    (hx : ns'.map Prod.snd = xs) : Agrees eq d l' (s.enter x xs) :=
  ⟨⟨ns', hr, hx⟩, by rw [hs.1, h.areEqual], by rw [hs.2.1, h.hasDestroy],
    by rw [hs.2.2, h.destroyed]; rfl⟩

theorem exec_spec {eq : α → α → Int} {d : Bool} {l : AxlList α} {s : State α}
    (h : Agrees eq d l s) (op : Op α) :
    ∃ l' s', l.exec op = some l' ∧ Step eq s op s' ∧ Agrees eq d l' s' := by
  obtain ⟨ns, hr, hx⟩ := h.rep
  have heq := h.areEqual
  cases op with
  | add x =>
    obtain ⟨l', ns', h1, h2, h3, h4, h5⟩ := add_spec hr x
    rw [hx, heq] at h4
    rcases h3 with rfl | ⟨L, R, a, e1, e2⟩
    · rw [hx] at h4
      refine ⟨l', s, h1, Step.notAdded s h4, ⟨⟨_, h2, hx⟩, ?_, ?_, ?_⟩⟩
      · rw [h5.1, heq]
      · rw [h5.2.1, h.hasDestroy]
      · rw [h5.2.2, h.destroyed]
    · refine ⟨l', _, h1, Step.added s h4 ?_, agrees_enter h h2 h5 rfl⟩
      intro e
      have := congrArg List.length e
      rw [← hx, e1, e2] at this
      simp at this
  | append x =>
    obtain ⟨l', a, h1, h2, h3⟩ := append_spec hr x
    exact ⟨l', _, h1, Step.append s x, agrees_enter h h2 h3 (by simp [hx])⟩
  | prepend x =>
    obtain ⟨l', a, h1, h2, h3⟩ := prepend_spec hr x
    exact ⟨l', _, h1, Step.prepend s x, agrees_enter h h2 h3 (by simp [hx])⟩
  | addAt x p =>
    obtain ⟨l', a, h1, h2, h3⟩ := addAt_spec hr x p
    exact ⟨l', _, h1, Step.addAt s x p, agrees_enter h h2 h3 (by simp [List.map_take, List.map_drop, hx])⟩
  | takeFirst dd =>
    obtain ⟨l', h1, h2⟩ := removeFirst_spec hr dd
    refine ⟨l', _, h1, Step.takeFirst s dd, ?_⟩
    rw [hx] at h2
    exact agrees_leave h h2 (by rw [List.map_tail, hx]) (by cases s.elems <;> simp)
  | takeLast dd =>
    obtain ⟨l', h1, h2⟩ := removeLast_spec hr dd
    refine ⟨l', _, h1, Step.takeLast s dd, ?_⟩
    rw [hx] at h2
    exact agrees_leave h h2 (by rw [List.map_dropLast, hx]) (by cases s.elems <;> simp)
  | takeAt p dd =>
    by_cases hp : p < 0
    · exact ⟨l, s, removeAt_neg hr p hp dd, Step.takeAtNeg s p dd hp, h⟩
    · obtain ⟨k, rfl⟩ : ∃ k : Nat, p = k := ⟨p.toNat, by omega⟩
      obtain ⟨l', h1, h2⟩ := removeAt_spec hr k dd
      refine ⟨l', _, h1, Step.takeAt s k dd, ?_⟩
      rw [hx] at h2
      refine agrees_leave h h2 (by rw [map_eraseIdx', hx]) ?_
      intro e
      exact List.eraseIdx_of_length_le (List.getElem?_eq_none_iff.1 e)
  | take x dd =>
    obtain ⟨l', ns', h1, h2, h3⟩ := remove_spec hr x dd
    refine ⟨l', _, h1, Step.take s x dd, ?_⟩
    rw [hx, heq] at h2 h3
    refine agrees_leave h h3 h2 ?_
    intro e
    apply List.eraseP_of_forall_not
    simpa using e

theorem run_spec {eq : α → α → Int} {d : Bool} (ops : List (Op α)) {l : AxlList α} {s : State α}
    (h : Agrees eq d l s) :
    ∃ l' s', l.run ops = some l' ∧ Steps eq s ops s' ∧ Agrees eq d l' s' := by
  induction ops generalizing l s with
  | nil => exact ⟨l, s, rfl, Steps.nil s, h⟩
  | cons op ops ih =>
    obtain ⟨l1, s1, h1, h2, h3⟩ := exec_spec h op
    obtain ⟨l2, s2, g1, g2, g3⟩ := ih h3
    exact ⟨l2, s2, by simp [run, h1, g1], Steps.cons h2 g2, g3⟩

theorem agrees_new (eq : α → α → Int) (d : Bool) : Agrees eq d (new eq d) ({} : State α) :=
  ⟨⟨[], rep_new eq d, rfl⟩, rfl, rfl, by simp [new]⟩

theorem step_perm {eq : α → α → Int} {s s' : State α} {op : Op α} (h : Step eq s op s')
    (hp : (s.destroyed ++ s.elems ++ s.unlinked).Perm s.entered) :
    (s'.destroyed ++ s'.elems ++ s'.unlinked).Perm s'.entered := by
  have enter : ∀ (x : α) (xs : List α), xs.Perm (x :: s.elems) →
      ((s.enter x xs).destroyed ++ (s.enter x xs).elems ++ (s.enter x xs).unlinked).Perm
        (s.enter x xs).entered := by
    intro x xs hxs
    simp only [State.enter]
    refine (List.Perm.append_right _ (List.Perm.append_left _ hxs)).trans ?_
    refine List.Perm.trans ?_ (List.perm_append_comm (l₁ := [x]))
    simp only [List.singleton_append]
    refine List.Perm.trans ?_ (List.Perm.cons x hp)
    simp only [List.append_assoc, List.cons_append]
    exact List.perm_middle
  have leave : ∀ (o : Option α) (d : Bool) (xs : List α),
      (∀ x, o = some x → s.elems.Perm (x :: xs)) →
      ((s.leave o d xs).destroyed ++ (s.leave o d xs).elems ++ (s.leave o d xs).unlinked).Perm
        (s.leave o d xs).entered := by
    intro o d xs ho
    cases o with
    | none => exact hp
    | some x =>
      have hx := ho x rfl
      cases d
      · simp only [State.leave, Bool.false_eq_true, if_false]
        refine List.Perm.trans ?_ hp
        simp only [List.append_assoc]
        refine List.Perm.append_left _ ?_
        refine List.Perm.trans ?_ (List.Perm.append_right _ hx.symm)
        rw [← List.append_assoc]
        exact List.perm_append_comm.trans (by simp)
      · simp only [State.leave, if_true]
        refine List.Perm.trans ?_ hp
        refine List.Perm.append_right _ ?_
        simp only [List.append_assoc]
        exact List.Perm.append_left _ hx.symm
  cases h with
  | added h hne =>
    apply enter
    generalize s.elems = e at h hne
    cases h with
    | empty => exact List.Perm.refl _
    | alreadyStored => exact absurd rfl hne
    | before => exact List.perm_middle
    | after =>
      rename_i x l r y _ _
      have : l ++ y :: x :: r = (l ++ [y]) ++ x :: r := by simp
      rw [this]
      have e2 : x :: (l ++ y :: r) = x :: ((l ++ [y]) ++ r) := by simp
      rw [e2]
      exact List.perm_middle
    | noPlace => exact absurd rfl hne
  | notAdded h => exact hp
  | append x => exact enter x _ (List.perm_append_comm (l₂ := [x]))
  | prepend x => exact enter x _ (List.Perm.refl _)
  | addAt x p =>
    apply enter
    refine List.perm_middle.trans ?_
    rw [List.take_append_drop]
  | takeFirst d =>
    apply leave
    intro x hx
    cases he : s.elems with
    | nil => simp [he] at hx
    | cons a t => simp [he] at hx; simp [hx]
  | takeLast d =>
    apply leave
    intro x hx
    obtain ⟨ys, hy⟩ := List.getLast?_eq_some_iff.1 hx
    rw [hy]
    simp only [List.dropLast_concat]
    exact List.perm_append_comm
  | takeAt p d =>
    apply leave
    intro x hx
    exact perm_eraseIdx hx
  | takeAtNeg p d => exact hp
  | take x d =>
    apply leave
    intro y hy
    obtain ⟨_, l1, l2, e1, e2⟩ := List.find?_eq_some_iff_append.1 hy
    rename_i hyx
    rw [e1, List.eraseP_append_right _ (by intro b hb; simpa using e2 b hb),
      List.eraseP_cons_of_pos (by simpa using hyx)]
    exact List.perm_middle


theorem steps_perm {eq : α → α → Int} {ops : List (Op α)} {s0 s : State α} (h : Steps eq s0 ops s)
    (hp : (s0.destroyed ++ s0.elems ++ s0.unlinked).Perm s0.entered) :
    (s.destroyed ++ s.elems ++ s.unlinked).Perm s.entered := by
  induction h with
  | nil => exact hp
  | cons hs _ ih => exact ih (step_perm hs hp)

end AxlList
end Axl
