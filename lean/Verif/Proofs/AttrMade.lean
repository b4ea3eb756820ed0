/-
Attributes that were set, removed, trimmed and copied through the API.
-/
import Verif.Proofs.Attr
import Verif.Proofs.AttrTrim

namespace Axl
open Str Spec.Attr

namespace Attrs

abbrev Pairs := List (List Char × List Char)

theorem rep_length {a : Attrs} {ps : Pairs} (hr : Rep a ps) : a.num = ps.length := by
  obtain ⟨_, hr⟩ := hr
  obtain ⟨num, ptr⟩ := a
  cases ptr with
  | list l => rw [hr.1]; simpa using hr.2.2.length_eq
  | hash h => rw [hr.2.1]; exact hr.1.items

theorem rep_numAttributes {a : Attrs} {ps : Pairs} (hr : Rep a ps) : a.numAttributes = some ps.length := by
  have h := rep_length hr
  obtain ⟨_, hr⟩ := hr
  obtain ⟨num, ptr⟩ := a
  cases ptr with
  | list l =>
    simp only at hr h
    simp only [numAttributes]
    rw [if_pos (by omega), h]
  | hash t =>
    simp only at hr h
    simp only [numAttributes]
    rw [if_neg (by omega), hr.1.items]

theorem rep_has {a : Attrs} {ps : Pairs} (hr : Rep a ps) : a.hasAttributes = !ps.isEmpty := by
  have h := rep_length hr
  obtain ⟨_, hr⟩ := hr
  obtain ⟨num, ptr⟩ := a
  cases ptr with
  | list l =>
    simp only at hr h
    rw [hasAttributes_list]
    have := hr.2.2.length_eq
    cases l <;> cases ps <;> simp_all
  | hash t =>
    simp only at hr h
    have : (11 : Nat) ≤ ps.length := by omega
    cases ps with
    | nil => simp at this
    | cons => rfl

theorem copyList_kv (l : List Attr) : (copyList l).map kv = l.map kv := by
  induction l with
  | nil => rfl
  | cons x xs ih => simp [copyList, ih, kv]

theorem copyList_length (l : List Attr) : (copyList l).length = l.length := by
  simpa using congrArg List.length (copyList_kv l)

theorem copy_spec {a : Attrs} {ps : Pairs} (ha : Rep a ps) :
    ∃ b, a.copy true = some b ∧ Rep b ps := by
  have hh := rep_has ha
  unfold copy
  obtain ⟨hd, hr⟩ := ha
  by_cases h0 : ps = []
  · subst h0
    rw [hh]
    exact ⟨empty, rfl, rep_empty⟩
  · have : a.hasAttributes = true := by rw [hh]; cases ps <;> simp_all
    rw [this]
    obtain ⟨num, ptr⟩ := a
    cases ptr with
    | list l =>
      simp only at hr
      simp only [Bool.and_self, if_true]
      rw [if_neg (by omega)]
      exact ⟨_, rfl, hd, by simp only [copyList_length]; omega, by rw [copyList_length]; omega, by rw [copyList_kv]; exact hr.2.2⟩
    | hash t =>
      simp only at hr
      simp only [Bool.and_self, if_true]
      rw [if_pos (by omega)]
      obtain ⟨r, e, hi, hc, _, hp⟩ := AxlHash.copyCommon_spec hr.1.inv (fun n => n.key) (fun n => n.data)
        (fun n _ => by rw [hr.1.equal_eq, efun_eq]; simp) (some (some (), some ()))
      rw [e]
      have hp' : (r.table.flatten.map nkv).Perm (ps.map sp) := by
        refine (hp.map nkv).trans ?_
        rw [List.map_map]
        exact hr.1.perm
      have hrep : HRep r ps := ⟨hi, hc.1.trans hr.1.hash_eq, hc.2.1.trans hr.1.equal_eq, hp'⟩
      refine ⟨_, rfl, hd, hrep, ?_, ?_⟩
      · rw [hrep.items, hr.2.1, hr.1.items]
      · rw [hrep.items, ← hr.1.items]; exact hr.2.2

theorem copy_off (a : Attrs) : a.copy false = some empty := by simp [copy]

/-- The pairs of attributes that were made with the API; they have no terminator inside. -/
theorem Made.rep' {a : Attrs} (h : a.Made) : ∃ ps, Rep a ps ∧ ∀ p ∈ ps, NUL ∉ p.1 ∧ NUL ∉ p.2 := by
  induction h with
  | empty => exact ⟨[], rep_empty, by simp⟩
  | @call a b op _ ho e ih =>
    obtain ⟨ps, hr, hn⟩ := ih
    cases op with
    | set n v =>
      obtain ⟨a1, g1, g2⟩ := rep_setAttribute hr n v (ho n (by simp [Op.texts])) (ho v (by simp [Op.texts]))
      rw [exec, g1] at e
      cases e
      refine ⟨_, g2, ?_⟩
      split
      · exact hn
      · intro p hp
        rcases List.mem_cons.1 hp with rfl | hp
        · exact ⟨nul_encode (ho n (by simp [Op.texts])), nul_encode (ho v (by simp [Op.texts]))⟩
        · exact hn p hp
    | setRef n v f =>
      obtain ⟨a1, g1, g2⟩ := rep_setInternal hr n v f
      have : a.exec (.setRef n v f) = some a1 := by cases f <;> simp [exec, setAttributeRef, setAttributeFromFactory, g1]
      rw [this] at e
      cases e
      refine ⟨_, g2, ?_⟩
      split
      · exact hn
      · intro p hp
        rcases List.mem_cons.1 hp with rfl | hp
        · exact ⟨ho n (by simp [Op.texts]), ho v (by simp [Op.texts])⟩
        · exact hn p hp
    | remove n =>
      obtain ⟨a1, g1, g2⟩ := rep_remove hr n hn
      rw [exec, g1] at e
      cases e
      refine ⟨_, g2, ?_⟩
      split
      · intro p hp
        obtain ⟨q, hq, -, rfl⟩ := mem_reenc hp
        obtain ⟨g2, g3⟩ := hn q (List.mem_filter.1 hq).1
        exact ⟨nul_encode g2, nul_encode g3⟩
      · intro p hp
        exact hn p (List.mem_filter.1 hp).1
  | copy _ e ih =>
    obtain ⟨ps, hr, hn⟩ := ih
    obtain ⟨b, g1, g2⟩ := copy_spec hr
    rw [g1] at e
    cases e
    exact ⟨ps, g2, hn⟩
  | @trimmed a b n r _ e ih =>
    obtain ⟨ps, hr, hn⟩ := ih
    rcases rep_trimmed hr n (fun p hp => (hn p hp).2) with ⟨-, g⟩ | ⟨v, t, b', h1, h2, g, h3⟩
    · rw [g] at e
      cases e
      exact ⟨ps, hr, hn⟩
    · rw [g] at e
      cases e
      exact ⟨_, h3, nul_setPair h1 h2 hn⟩

theorem Made.rep {a : Attrs} (h : a.Made) : ∃ ps, Rep a ps := by
  obtain ⟨ps, hr, -⟩ := h.rep'
  exact ⟨ps, hr⟩

theorem Made.run : ∀ (ops : List Op) {a b : Attrs}, a.Made → NoNul NUL ops → a.run ops = some b → b.Made
  | [], a, b, h, _, e => by cases e; exact h
  | op :: ops, a, b, h, hn, e => by
    simp only [Attrs.run, Option.bind_eq_bind] at e
    cases h1 : a.exec op with
    | none => rw [h1] at e; cases e
    | some a1 =>
      rw [h1] at e
      exact Made.run ops (.call h (hn op (by simp)) h1) (fun o ho => hn o (by simp [ho])) e

/-- Attributes made with calls. -/
theorem Made.of {a : Attrs} (h : ∃ ops : List Op, NoNul NUL ops ∧ Attrs.empty.run ops = some a) : a.Made := by
  obtain ⟨ops, h1, h2⟩ := h
  exact .run ops .empty h1 h2

end Attrs
end Axl
