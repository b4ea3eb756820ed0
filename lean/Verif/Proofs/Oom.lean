/-
Proofs for C70: lists and stacks when there is no memory.
-/
import Verif.Spec.Oom
import Verif.Proofs.ListOrder
import Verif.Proofs.Stack

namespace Axl
open Spec

theorem alloc_refused {a : Answers} (h : (alloc a).1 = false) : false ∈ a := by
  cases a with
  | nil => cases h
  | cons b a => simp [alloc] at h; simp [h]

theorem alloc_refused_later {a : Answers} (h : (alloc (alloc a).2).1 = false) : false ∈ a := by
  cases a with
  | nil => cases h
  | cons b a => exact List.mem_cons_of_mem _ (alloc_refused h)

namespace AxlList
variable {α : Type}

theorem prepare_spec {eq : α → α → Int} {d : Bool} {l : AxlList α} {s : Seq.State α} (h : Agrees eq d l s) (a : Answers) :
    l.prepare a = (true, l) ∨ ∃ l', l.prepare a = (false, l') ∧ false ∈ a ∧ Agrees eq d l' s := by
  unfold prepare
  split
  · exact .inl rfl
  · by_cases h1 : (alloc a).1
    · by_cases h2 : (alloc (alloc a).2).1
      · simp [h1, h2]
      · refine .inr ⟨{ l with allocated := l.allocated + 1 }, by simp [h1, h2], alloc_refused_later (by simpa using h2), ?_⟩
        obtain ⟨ns, hr, hx⟩ := h.rep
        exact ⟨⟨ns, ⟨hr.seg, hr.first, hr.last, hr.len, hr.nodup, hr.bound, hr.poolNodup, hr.poolBound, hr.poolDisj, hr.poolAlloc,
          hr.cap, Nat.le_succ_of_le hr.alloc⟩, hx⟩, h.areEqual, h.hasDestroy, h.destroyed⟩
    · exact .inr ⟨l, by simp [h1], alloc_refused (by simpa using h1), h⟩

theorem execOom_spec {eq : α → α → Int} {d : Bool} {l : AxlList α} {s : Seq.State α} (h : Agrees eq d l s) (a : Answers)
    (op : Seq.Op α) :
    (∃ l' s', l.execOom a op = some l' ∧ Seq.Step eq s op s' ∧ Agrees eq d l' s') ∨
    ∃ l', l.execOom a op = some l' ∧ Oom.adds op = true ∧ false ∈ a ∧ Agrees eq d l' s := by
  obtain ⟨l1, s1, h1, h2, h3⟩ := exec_spec h op
  cases op with
  | takeFirst | takeLast | takeAt | take => exact .inl ⟨l1, s1, h1, h2, h3⟩
  | add x | append x | prepend x | addAt x p =>
    rcases prepare_spec h a with e | ⟨l', e, hf, ha⟩
    · refine .inl ⟨l1, s1, ?_, h2, h3⟩
      simp only [execOom, addOom, appendOom, prependOom, addAtOom, e]
      exact h1
    · exact .inr ⟨l', by simp [execOom, addOom, appendOom, prependOom, addAtOom, e], rfl, hf, ha⟩

theorem runOom_spec {eq : α → α → Int} {d : Bool} : ∀ (ops : List (Seq.Op α × Answers)) {l : AxlList α} {s : Seq.State α},
    Agrees eq d l s → ∃ l' s', l.runOom ops = some l' ∧ Oom.Steps eq s ops s' ∧ Agrees eq d l' s'
  | [], l, s, h => ⟨l, s, rfl, .nil s, h⟩
  | (op, a) :: ops, l, s, h => by
    rcases execOom_spec h a op with ⟨l1, s1, h1, h2, h3⟩ | ⟨l1, h1, h2, h3, h4⟩
    · obtain ⟨l2, s2, g1, g2, g3⟩ := runOom_spec ops h3
      exact ⟨l2, s2, by simp [runOom, h1, g1], .done h2 g2, g3⟩
    · obtain ⟨l2, s2, g1, g2, g3⟩ := runOom_spec ops h4
      exact ⟨l2, s2, by simp [runOom, h1, g1], .refused h2 h3 g2, g3⟩

theorem copyLoopOom_spec {l : AxlList α} {ns : List (Nat × α)} (h : Rep l ns) (func : Option (α → α)) :
    ∀ (fuel i : Nat), i + fuel = ns.length + 1 → i ≤ ns.length → ∀ (as : List Answers) (res : AxlList α) (made : List α),
    copyLoopOom l func fuel i as (some res) made =
      (res.runOom (Oom.storing (((ns.map Prod.snd).drop i).map (func.getD id)) as)).map
        (fun r => (some r, made ++ (match func with
          | some f => ((ns.map Prod.snd).drop i).map f
          | none => [])))
  | 0, i, hi, hb, as, res, made => by omega
  | fuel + 1, i, hi, hb, as, res, made => by
    have hlen := h.len
    unfold copyLoopOom
    by_cases hlt : i < (ns.map Prod.snd).length
    · have hn : l.getNth (i : Int) = some (some (ns.map Prod.snd)[i]) := by
        rw [getNth_spec h, if_neg (by omega)]
        have : ((i : Int)).toNat = i := by simp
        rw [this, List.getElem?_eq_getElem hlt]
      rw [if_pos (by simp at hlt; omega), List.drop_eq_getElem_cons hlt]
      simp only [hn, Option.bind_eq_bind, Option.bind_some, List.map_cons, Oom.storing, runOom, execOom]
      have ih := copyLoopOom_spec h func fuel (i + 1) (by omega) (by simp at hlt; omega) as.tail
      cases func with
      | none =>
        simp only [Option.getD_none, id_eq]
        cases res.addOom (as.headD []) (ns.map Prod.snd)[i] with
        | none => rfl
        | some r => exact ih r made
      | some f =>
        simp only [Option.getD_some]
        cases res.addOom (as.headD []) (f (ns.map Prod.snd)[i]) with
        | none => rfl
        | some r => exact (ih r _).trans (by simp)
    · rw [if_neg (by simp at hlt; omega), List.drop_of_length_le (by omega)]
      cases func <;> simp [Oom.storing, runOom]

theorem copyLoopOom_none {l : AxlList α} {ns : List (Nat × α)} (h : Rep l ns) (f : α → α) :
    ∀ (fuel i : Nat), i + fuel = ns.length + 1 → i ≤ ns.length → ∀ (as : List Answers) (made : List α),
    copyLoopOom l (some f) fuel i as none made = some (none, made ++ ((ns.map Prod.snd).drop i).map f)
  | 0, i, hi, hb, as, made => by omega
  | fuel + 1, i, hi, hb, as, made => by
    have hlen := h.len
    unfold copyLoopOom
    by_cases hlt : i < (ns.map Prod.snd).length
    · have hn : l.getNth (i : Int) = some (some (ns.map Prod.snd)[i]) := by
        rw [getNth_spec h, if_neg (by omega)]
        have : ((i : Int)).toNat = i := by simp
        rw [this, List.getElem?_eq_getElem hlt]
      rw [if_pos (by simp at hlt; omega), List.drop_eq_getElem_cons hlt]
      simp only [hn, Option.bind_eq_bind, Option.bind_some, List.map_cons]
      rw [copyLoopOom_none h f fuel (i + 1) (by omega) (by simp at hlt; omega) as.tail]
      simp
    · rw [if_neg (by simp at hlt; omega), List.drop_of_length_le (by omega)]
      simp

theorem oom_perm {eq : α → α → Int} {ops : List (Seq.Op α × List Bool)} {s0 s : Seq.State α} (h : Oom.Steps eq s0 ops s)
    (hp : (s0.destroyed ++ s0.elems ++ s0.unlinked).Perm s0.entered) :
    (s.destroyed ++ s.elems ++ s.unlinked).Perm s.entered := by
  induction h with
  | nil => exact hp
  | done hs _ ih => exact ih (step_perm hs hp)
  | refused _ _ _ ih => exact ih hp

/-- After a node was taken out there is one in the pool. -/
theorem removeNode_pool {l l' : AxlList α} {p : Nat} {b : Bool} (h : l.removeNode p b = some l') : l'.pool ≠ [] := by
  have key : ∀ {l1 l2 : AxlList α}, l1.disposeNode p = some l2 → l2.pool ≠ [] := by
    intro l1 l2 h3
    unfold disposeNode at h3
    split at h3
    · cases h3; simp
    · cases h3
  unfold removeNode at h
  cases hm : l.mem p with
  | none => simp [hm] at h
  | some c =>
    cases hp : c.prev <;> cases hn : c.next <;>
      simp only [hm, hp, hn, Option.bind_eq_bind, Option.bind_some, Option.bind_eq_some_iff, Option.map_eq_some_iff] at h
    · obtain ⟨l2, h3, h4⟩ := h
      have k := key h3; cases h4; exact k
    · obtain ⟨_, -, l2, h3, h4⟩ := h
      have k := key h3; cases h4; exact k
    · obtain ⟨_, -, l2, h3, h4⟩ := h
      have k := key h3; cases h4; exact k
    · obtain ⟨_, -, _, -, l2, h3, h4⟩ := h
      have k := key h3; cases h4; exact k

end AxlList

namespace AxlStack
variable {α : Type}
open Spec.Stack

theorem runOom_spec : ∀ (ops : List (Op α × Answers)) {s : AxlStack α} {xs : List α}, Rep s xs →
    ∃ s' xs', s.runOom ops = some s' ∧ Oom.StackSteps xs ops xs' ∧ Rep s' xs' ∧ s'.hasDestroy = s.hasDestroy ∧
      s'.destroyed = s.destroyed
  | [], s, xs, h => ⟨s, xs, rfl, .nil xs, h, rfl, rfl⟩
  | (.push x, a) :: ops, s, xs, h => by
    by_cases hc : x.isSome ∧ s.size = s.items ∧ (alloc a).1 = false
    · obtain ⟨s2, xs2, g1, g2, g3⟩ := runOom_spec ops h
      exact ⟨s2, xs2, by simp [runOom, pushOom, hc, g1], .refused (alloc_refused hc.2.2) g2, g3⟩
    · have : ∃ s1, s.push x = some s1 ∧ Rep s1 (step xs (.push x)) ∧ s1.hasDestroy = s.hasDestroy ∧ s1.destroyed = s.destroyed := by
        cases x with
        | none => exact ⟨s, rfl, h, rfl, rfl⟩
        | some x => exact push_spec h x
      obtain ⟨s1, e1, e2, e3, e4⟩ := this
      obtain ⟨s2, xs2, g1, g2, g3, g4, g5⟩ := runOom_spec ops e2
      exact ⟨s2, xs2, by simp [runOom, pushOom, hc, e1, g1], .done g2, g3, by rw [g4, e3], by rw [g5, e4]⟩
  | (.pop, a) :: ops, s, xs, h => by
    have : ∃ o s1, s.pop = some (o, s1) ∧ Rep s1 (step xs .pop) ∧ s1.hasDestroy = s.hasDestroy ∧ s1.destroyed = s.destroyed := by
      cases xs with
      | nil => exact ⟨none, s, pop_nil h, h, rfl, rfl⟩
      | cons x xs =>
        obtain ⟨s1, e1, e2, e3, e4⟩ := pop_cons h
        exact ⟨some x, s1, e1, e2, e3, e4⟩
    obtain ⟨o, s1, e1, e2, e3, e4⟩ := this
    obtain ⟨s2, xs2, g1, g2, g3, g4, g5⟩ := runOom_spec ops e2
    exact ⟨s2, xs2, by simp [runOom, e1, g1], .done g2, g3, by rw [g4, e3], by rw [g5, e4]⟩

end AxlStack

namespace BinaryStack
open Spec.Stack

theorem pushCreateOom_eq (b : BinaryStack) {a : Answers} (state : Bool) (h : a[1]? ≠ some false) :
    b.pushCreateOom a state = if (alloc a).1 then b.pushCreate state else some b := by
  have h2 : (alloc (alloc a).2).1 = true := by
    match a, h with
    | [], _ => rfl
    | [_], _ => rfl
    | _ :: c :: _, h => simpa [alloc] using h
  unfold pushCreateOom pushCreate
  simp only
  by_cases h1 : (alloc a).1
  · simp [h1, AxlStack.pushOom, h2, setNode]
  · simp [h1]

theorem pushOom_spec {b : BinaryStack} {ns : List (Nat × BNode)} (h : Rep b ns) {a : Answers} (state : Bool)
    (ha : a[1]? ≠ some false) :
    (∃ b' ns', b.pushOom a state = some b' ∧ Rep b' ns' ∧ expand ns' = state :: expand ns) ∨
    (b.pushOom a state = some b ∧ false ∈ a) := by
  obtain ⟨b1, ns1, h1, h2, h3⟩ := push_spec h state
  have key : b.pushOom a state = b.push state ∨ (b.pushOom a state = some b ∧ false ∈ a) := by
    unfold pushOom push
    rw [pushCreateOom_eq b state ha]
    cases hl : b.last with
    | none =>
      by_cases h1 : (alloc a).1
      · simp [h1]
      · exact .inr ⟨by simp [h1], alloc_refused (by simpa using h1)⟩
    | some p =>
      cases hp : b.heap p with
      | none => exact .inl (by simp [hp])
      | some n =>
        by_cases hs : n.state = state
        · simp [hp, hs]
        · by_cases h1 : (alloc a).1
          · simp [hp, hs, h1]
          · exact .inr ⟨by simp [hp, hs, h1], alloc_refused (by simpa using h1)⟩
  rcases key with e | e
  · exact .inl ⟨b1, ns1, by rw [e, h1], h2, h3⟩
  · exact .inr e

theorem runOom_spec : ∀ (ops : List (BOp × Answers)) {b : BinaryStack} {ns : List (Nat × BNode)}, Rep b ns →
    (∀ op ∈ ops, op.2[1]? ≠ some false) →
    ∃ b' ns', b.runOom ops = some b' ∧ Oom.BStackSteps (expand ns) ops (expand ns') ∧ Rep b' ns'
  | [], b, ns, h, _ => ⟨b, ns, rfl, .nil _, h⟩
  | (.push x, a) :: ops, b, ns, h, ha => by
    rcases pushOom_spec h x (ha (.push x, a) (List.mem_cons_self ..)) with ⟨b1, ns1, h1, h2, h3⟩ | ⟨h1, h2⟩
    · obtain ⟨b2, ns2, g1, g2, g3⟩ := runOom_spec ops h2 fun o ho => ha o (List.mem_cons_of_mem _ ho)
      exact ⟨b2, ns2, by simp [runOom, h1, g1], .done (by rw [h3] at g2; exact g2), g3⟩
    · obtain ⟨b2, ns2, g1, g2, g3⟩ := runOom_spec ops h fun o ho => ha o (List.mem_cons_of_mem _ ho)
      exact ⟨b2, ns2, by simp [runOom, h1, g1], .refused h2 g2, g3⟩
  | (.pushTheSame, a) :: ops, b, ns, h, ha => by
    obtain ⟨b1, ns1, h1, h2, h3⟩ := pushTheSame_spec h
    obtain ⟨b2, ns2, g1, g2, g3⟩ := runOom_spec ops h2 fun o ho => ha o (List.mem_cons_of_mem _ ho)
    exact ⟨b2, ns2, by simp [runOom, h1, g1], .done (by rw [h3] at g2; exact g2), g3⟩
  | (.pop, a) :: ops, b, ns, h, ha => by
    obtain ⟨b1, ns1, h1, h2, h3⟩ := pop_spec h
    obtain ⟨b2, ns2, g1, g2, g3⟩ := runOom_spec ops h2 fun o ho => ha o (List.mem_cons_of_mem _ ho)
    exact ⟨b2, ns2, by simp [runOom, h1, g1], .done (by rw [h3] at g2; exact g2), g3⟩

end BinaryStack
end Axl
