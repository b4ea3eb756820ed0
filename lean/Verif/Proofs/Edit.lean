/-
Proofs for C80: the run of a program on a document that was read, with the attributes.
-/
import Verif.Spec.Edit
import Verif.Proofs.BuildRead
import Verif.Props.Load
import Verif.Props.Stable

namespace Axl.Work
open Spec.Build Spec.Tree Spec.Tree.Forest Spec.Attr Str Spec.Edit

/-- The attributes hold the pairs stored. -/
structure Kept (a : Attrs) (ps : List (List Char × List Char)) : Prop where
  made : a.Made
  rep  : Attrs.Rep a ps
  nul  : ∀ p ∈ ps, NUL ∉ p.1 ∧ NUL ∉ p.2

theorem Kept.of {a : Attrs} {ps : List (List Char × List Char)} (hm : a.Made) (hl : a.Lists ps) : Kept a ps := by
  obtain ⟨qs, hr, hn⟩ := hm.rep'
  have hq := Attrs.rep_lists hr (List.Perm.refl qs)
  have nd : ∀ {l : List (List Char × List Char)}, (l.map (·.1)).Nodup → l.Nodup :=
    fun h => List.Pairwise.of_map _ (fun a b hab e => hab (by rw [e])) h
  have hp : qs.Perm ps := (List.perm_ext_iff_of_nodup (nd hq.once) (nd hl.once)).2 fun x => by
    rw [show x = (x.1, x.2) from rfl, hq.mem, hl.mem]
  exact ⟨hm, Attrs.rep_perm hr hp, fun p h => hn p (hp.mem_iff.2 h)⟩

theorem Kept.copied : Copied Kept := by
  intro a ps K b
  cases b with
  | false => exact ⟨_, Attrs.copy_off a, .empty, Attrs.rep_empty, by simp⟩
  | true =>
    obtain ⟨b, h1, h2⟩ := Attrs.copy_spec K.rep
    exact ⟨b, h1, .copy K.made h1, h2, K.nul⟩

theorem Kept.set {a : Attrs} {ps : List (List Char × List Char)} (K : Kept a ps) {k v : List Char} (hk : NUL ∉ k) (hv : NUL ∉ v) :
    ∃ b, a.exec (.set k v) = some b ∧
      Kept b (if k = [] ∨ ps.any (fun p => p.1 == encode k) then ps else (encode k, encode v) :: ps) := by
  obtain ⟨b, h1, h2⟩ := Attrs.rep_setAttribute K.rep k v hk hv
  have he : a.exec (.set k v) = some b := h1
  refine ⟨b, he, .call K.made ?_ he, h2, ?_⟩
  · intro s hs
    simp only [Spec.Attr.Op.texts, List.mem_cons, List.not_mem_nil, or_false] at hs
    rcases hs with rfl | rfl
    · exact hk
    · exact hv
  · split
    · exact K.nul
    · intro p hp
      rcases List.mem_cons.1 hp with rfl | hp
      · exact ⟨Attrs.nul_encode hk, Attrs.nul_encode hv⟩
      · exact K.nul p hp

theorem Kept.remove {a : Attrs} {ps : List (List Char × List Char)} (K : Kept a ps) {k : List Char} (hk : NUL ∉ k) :
    ∃ b, a.exec (.remove k) = some b ∧ Kept b (removed ps k) := by
  obtain ⟨b, h1, h2⟩ := Attrs.rep_remove K.rep k K.nul
  have he : a.exec (.remove k) = some b := h1
  refine ⟨b, he, .call K.made (by simpa [Spec.Attr.Op.texts] using hk) he, h2, ?_⟩
  unfold removed
  split
  · intro p hp
    obtain ⟨q, hq, rfl⟩ := List.mem_map.1 hp
    have := K.nul q (List.mem_filter.1 (List.mem_filter.1 hq).1).1
    exact ⟨Attrs.nul_encode this.1, Attrs.nul_encode this.2⟩
  · intro p hp
    exact K.nul p (List.mem_filter.1 hp).1

theorem Kept.trimmed {a : Attrs} {ps : List (List Char × List Char)} (K : Kept a ps) (k : List Char) :
    ∃ r b, a.getValueTrimmed k = some (r, b) ∧ Kept b (trimPair k ps) := by
  obtain ⟨r, b, h1, h2, h3⟩ := trim_rep K.made K.rep (fun p hp => (K.nul p hp).2) k
  refine ⟨r, b, h1, h2, h3, ?_⟩
  intro p hp
  obtain ⟨q, hq, rfl⟩ := List.mem_map.1 hp
  split
  · exact ⟨(K.nul q hq).1, nul_trim (K.nul q hq).2⟩
  · exact K.nul q hq

theorem edit_spec : ∀ (calls : List Call) {w : Work} {s : State}, Heap.Inv w.heap s.forest → (∀ n, Kept (w.attrs n) (s.attrs n)) →
    Spec.Edit.Fits s calls = true → (∀ c ∈ calls, StringsOk c) →
    ∃ w', w.run calls = some w' ∧ Heap.Inv w'.heap (Spec.Edit.run s calls).forest ∧
      ∀ n, Kept (w'.attrs n) ((Spec.Edit.run s calls).attrs n)
  | [], w, s, I, F, _, _ => ⟨w, rfl, I, F⟩
  | c :: cs, w, s, I, F, hf, ht => by
    simp only [Spec.Edit.Fits, Bool.and_eq_true] at hf
    have htc := ht c (by simp)
    have hts : ∀ c ∈ cs, StringsOk c := fun d hd => ht d (by simp [hd])
    have go : ∀ w1, w.exec c = some w1 → Heap.Inv w1.heap (Spec.Edit.step s c).forest →
        (∀ n, Kept (w1.attrs n) ((Spec.Edit.step s c).attrs n)) →
        ∃ w', w.run (c :: cs) = some w' ∧ Heap.Inv w'.heap (Spec.Edit.run s (c :: cs)).forest ∧
          ∀ n, Kept (w'.attrs n) ((Spec.Edit.run s (c :: cs)).attrs n) := by
      intro w1 he hI hF
      obtain ⟨w', g1, g2, g3⟩ := edit_spec cs hI hF hf.2 hts
      exact ⟨w', by simp [Work.run, he, g1], g2, g3⟩
    have attrCase : ∀ (n : Nat) (op : Spec.Attr.Op) (l : List (List Char × List Char)), w.exec c = w.attr n op → s.forest.live n = true →
        (∃ b, (w.attrs n).exec op = some b ∧ Kept b l) → Spec.Edit.step s c = s.setAttrs n l →
        ∃ w', w.run (c :: cs) = some w' ∧ Heap.Inv w'.heap (Spec.Edit.run s (c :: cs)).forest ∧
          ∀ n, Kept (w'.attrs n) ((Spec.Edit.run s (c :: cs)).attrs n) := by
      intro n op l he hl hb hs
      obtain ⟨b, h1, h2⟩ := hb
      obtain ⟨cell, hcell⟩ := live_nodes I (n := n) hl
      refine go { w with attrs := fun m => if m = n then b else w.attrs m } (by rw [he]; simp [Work.attr, hcell, h1]) (by rw [hs]; exact I) ?_
      intro m
      rw [hs]
      simp only [State.setAttrs]
      split
      · exact h2
      · exact F m
    have textCase : ∀ (p : Nat) (k : TextKind) (t : List Char), s.forest.live p = true →
        ∃ h', w.heap.setChild p (.text k t) = some h' ∧ Heap.Inv h' (s.forest.setKids p (s.forest.kids p ++ [.text k t])) := by
      intro p k t hl
      obtain ⟨h', e, I'⟩ := Heap.inv_exec (op := .setChild p (.text k t)) I (by simp [Forest.fits, mayGo, hl])
      exact ⟨h', e, I'⟩
    cases c with
    | tree op =>
      simp only [Spec.Edit.fits, Bool.and_eq_true] at hf
      obtain ⟨h', e, I'⟩ := Heap.inv_exec (op := op) I hf.1.2
      exact go { w with heap := h' } (by simp [exec, Work.tree, e]) I' F
    | copy n attributes childs =>
      obtain ⟨w1, e, I', F'⟩ := copy_stored Kept.copied I F hf.1 attributes childs
      exact go w1 (by simp [exec, e]) I' F'
    | content p x =>
      obtain ⟨h', e, I'⟩ := textCase p .content (encode x) hf.1
      refine go { w with heap := h' } ?_ I' F
      have := setContent_stored x htc
      cases hc : Escape.setContent (x ++ [NUL]) (-1) with
      | none => rw [hc] at this; cases this
      | some c =>
        rw [hc, Option.bind_some] at this
        simp [exec, Work.setContent, hc, this, e]
    | cdata p x =>
      obtain ⟨h', e, I'⟩ := textCase p .cdata (encode x) hf.1
      refine go { w with heap := h' } ?_ I' F
      have := setCdata_stored x htc.1 htc.2
      cases hc : Escape.setCdataContent (x ++ [NUL]) (-1) with
      | none => rw [hc] at this; cases this
      | some c =>
        rw [hc, Option.bind_some] at this
        simp [exec, Work.setCdata, hc, this, e]
    | setAttr n k v =>
      refine attrCase n (.set k v) _ rfl hf.1 ((F n).set htc.1 htc.2) ?_
      simp only [Spec.Edit.step]
      split
      · have : (fun m => if m = n then s.attrs n else s.attrs m) = s.attrs := by
          funext m
          split
          · next e => rw [e]
          · rfl
        simp only [State.setAttrs, this]
      · rfl
    | removeAttr n k => exact attrCase n (.remove k) _ rfl hf.1 ((F n).remove htc) rfl
    | trimAttr n k =>
      obtain ⟨r, b, h1, h2⟩ := (F n).trimmed k
      obtain ⟨cell, hcell⟩ := live_nodes I (n := n) hf.1
      refine go { w with attrs := fun m => if m = n then b else w.attrs m } (by simp [exec, Work.trimAttr, hcell, h1]) I ?_
      intro m
      simp only [Spec.Edit.step, State.setAttrs]
      split
      · exact h2
      · exact F m

mutual
theorem attrs_made : ∀ {n : Node}, Parse.AllMade n → ∀ i, (Load.attrs n i).Made
  | .mk _ a items, h, 0 => by
    simp only [Parse.AllMade] at h
    exact h.1
  | .mk _ a items, h, i + 1 => by
    simp only [Parse.AllMade] at h
    exact attrsIn_made h.2 i
theorem attrsIn_made : ∀ {items : Items}, Parse.AllMadeItems items → ∀ i, (Load.attrsIn items i).Made
  | .nil, _, i => .empty
  | .leaf l next, h, i => by
    simp only [Parse.AllMadeItems] at h
    exact attrsIn_made h i
  | .node n next, h, i => by
    simp only [Parse.AllMadeItems] at h
    simp only [Load.attrsIn]
    split
    · exact attrs_made h.1 i
    · exact attrsIn_made h.2 _
end

end Axl.Work
