/-
Element declarations: the parser over the memory does what the one over the text does, and what is lost when it fails.
-/
import Verif.Proofs.DtdMemSpec

namespace Axl
namespace DtdMem
open Str Dtd

/-- The lists that were open, each inside the one before. -/
def wrap : MContent → List (MContent × Nat) → MContent
  | c, [] => c
  | c, (p, n) :: st => wrap { p with parts := p.parts ++ [.list n c.id c.kind c.times c.itemList c.parts] } st

theorem wrap_blocks : ∀ (st : List (MContent × Nat)) (c : MContent),
    (c.blocks ++ (st.map fun p => p.2 :: p.1.blocks).flatten).Perm (wrap c st).blocks
  | [], c => by simp [wrap]
  | (p, n) :: st, c => by
    refine List.Perm.trans ?_ (wrap_blocks st _)
    simp only [List.map_cons, List.flatten_cons, MContent.blocks, partsBlocks_append, partsBlocks, MPart.blocks]
    blocks

/-- The content model that a reading was making. -/
theorem MReading.whole (m : MReading) : ∃ l : MContent, m.blocks.Perm l.blocks := ⟨_, wrap_blocks m.stack m.cur⟩

section
variable {ask : Bool} {s : List Char} {d : MDtd} {tmp : List Nat} {w : World}

/-- What is lost of an element when its content model fails. -/
def LostList (ask : Bool) (tmp : List Nat) (w : World) : Prop := ∃ l : MContent, Dead ask (l.blocks ++ tmp) w

theorem Dead.perm {tmp' : List Nat} (h : Dead ask tmp w) (p : tmp.Perm tmp') : Dead ask tmp' w :=
  ⟨h.stream, h.dtd, h.heap.trans p, h.nodup, h.errors⟩

theorem LostSpec.list (h : LostSpec ask tmp w) : LostList ask tmp w := by
  obtain ⟨m, h⟩ := h
  obtain ⟨l, p⟩ := m.whole
  exact ⟨l, h.perm (p.append_right _)⟩

theorem MReading.type_val {m : MReading} : m.type.val = m.val.type := by
  unfold MReading.type Reading.type MReading.val
  cases m.sort <;> cases m.closed <;> rfl

theorem MReading.type_list {m : MReading} :
    m.type.list = some { m.cur with kind := if m.cur.kind = .undef then .seq else m.cur.kind } := by
  unfold MReading.type
  cases m.sort <;> cases m.closed <;> rfl

theorem readSpec_any (h : Any ask s d tmp w) :
    Follows (fun (b : ElementType × List Char) (a : Option MType) w' =>
      ∃ t, a = some t ∧ t.val = b.1 ∧ (∀ l, t.list = some l → l.Made) ∧ Any ask b.2 d (t.blocks ++ tmp) w')
      (fun a w' => a = none ∧ LostList ask tmp w') (Dtd.readSpec s) (readSpec w) := by
  unfold readSpec Dtd.readSpec
  obtain ⟨stack, w1, e1, h1⟩ := h.alloc
  obtain ⟨l, w2, e2, h2⟩ := h1.alloc
  obtain ⟨w3, e3, h3⟩ := reads_skip h2
  obtain ⟨w4, e4, h4⟩ := inspect_any h3 c!"("
  rw [bind_ret e1, bind_ret e2, bind_ret e3, bind_ret e4]
  have hgo : ∀ {s' : List Char}, Any ask s' d (l :: stack :: tmp) w4 →
      Follows (fun (b : ElementType × List Char) (a : Option MType) w' =>
        ∃ t, a = some t ∧ t.val = b.1 ∧ (∀ l, t.list = some l → l.Made) ∧ Any ask b.2 d (t.blocks ++ tmp) w')
        (fun a w' => a = none ∧ LostList ask tmp w')
        (match Dtd.specLoop (s'.length + 1) ⟨⟨.undef, .one, []⟩, [], .children, false⟩ s' with
          | .ok (r, s) => .ok (r.type, s)
          | .error => .error
          | .ub => .ub
          | .loop => .loop)
        ((do
          let s ← getS
          let r ← specLoop stack (s.rest.length + 1) ⟨⟨l, .undef, .one, none, []⟩, [], .children, false⟩
          match r with
          | none => pure none
          | some r => do
            free stack
            pure (some r.type) : M (Option MType)) w4) := by
    intro s' h5
    obtain ⟨st, est, hst⟩ := h5.getS
    rw [bind_ret est, hst]
    have hm : (⟨⟨l, .undef, .one, none, []⟩, [], .children, false⟩ : MReading).Made :=
      ⟨⟨by simp, trivial⟩, fun p hp => (nomatch hp)⟩
    have h6 : Any ask s' d (stack :: ((⟨⟨l, .undef, .one, none, []⟩, [], .children, false⟩ : MReading).blocks ++ tmp)) w4 :=
      h5.perm (by simp only [MReading.blocks, MContent.blocks, partsBlocks]; blocks)
    rcases (specLoop_any (fuel := s'.length + 1) h6 hm).cases with
      ⟨⟨x1, x2⟩, a, w7, hX, hY, m, rfl, hv, hm7, hs7, h7⟩ | ⟨a, w7, hX, hY, rfl, h7⟩ | ⟨hX, hY⟩ | ⟨hX, hY⟩
    · rw [bind_ret hY]
      simp only [MReading.val, MContent.val, partsVal, List.map_nil] at hX
      rw [hX]
      simp only
      obtain ⟨w8, e8, h8⟩ := (frees_free stack).any (tmp := m.blocks ++ tmp) h7
      rw [bind_ret e8]
      refine ⟨m.type, rfl, ?_, ?_, h8.perm ?_⟩
      · rw [MReading.type_val, hv]
      · intro l' hl'
        rw [MReading.type_list] at hl'
        cases hl'
        exact hm7.cur
      · simp only [MType.blocks, MReading.type_list, MReading.blocks, hs7, List.map_nil, List.flatten_nil, List.append_nil, MContent.blocks]
        exact List.Perm.refl _
    · rw [bind_ret hY]
      simp only [MReading.val, MContent.val, partsVal, List.map_nil] at hX
      rw [hX]
      exact ⟨rfl, h7.list⟩
    · rw [bind_ub hY]
      simp only [MReading.val, MContent.val, partsVal, List.map_nil] at hX
      rw [hX]
      trivial
    · rw [bind_loop hY]
      simp only [MReading.val, MContent.val, partsVal, List.map_nil] at hX
      rw [hX]
      trivial
  simp only at h4 ⊢
  cases hi : Stream.inspect (Stream.skip s) c!"(" with
  | no =>
    rw [hi] at h4
    obtain ⟨w5, e5, h5⟩ := specFail_any (α := MType) (stack := stack) (tmp := l :: tmp) (h4.perm (by blocks))
    simp only
    rw [e5]
    exact ⟨rfl, ⟨l, .undef, .one, none, []⟩, h5⟩
  | short =>
    rw [hi] at h4
    simp only at h4 ⊢
    have hnil : Stream.skip s = [] := by
      unfold Stream.inspect at hi
      split at hi
      · cases hc : Stream.skip s with
        | nil => rfl
        | cons c cs =>
          rename_i hlt
          rw [hc] at hlt
          simp at hlt
      · split at hi <;> cases hi
    rw [hnil] at h4
    have := hgo h4
    exact this
  | yes s' =>
    rw [hi] at h4
    exact hgo h4

theorem elementType_any (h : Any ask s d tmp w) :
    Follows (fun (b : ElementType × List Char) (a : Option MType) w' =>
      ∃ t, a = some t ∧ t.val = b.1 ∧ (∀ l, t.list = some l → l.Made) ∧ Any ask b.2 d (t.blocks ++ tmp) w')
      (fun a w' => a = none ∧ LostList ask tmp w') (Dtd.elementType s) (elementType w) := by
  unfold elementType Dtd.elementType
  obtain ⟨w1, e1, h1⟩ := reads_skip h
  obtain ⟨w2, e2, h2⟩ := reads_eat c!"EMPTY" h1
  rw [bind_ret e1, bind_ret e2]
  simp only at h2 ⊢
  cases he : Stream.eat (Stream.skip s) c!"EMPTY" with
  | some s' =>
    rw [eaten_some he] at h2 ⊢
    exact ⟨.empty, rfl, rfl, fun l hl => (nomatch hl), h2⟩
  | none =>
    rw [eaten_none he] at h2 ⊢
    obtain ⟨w3, e3, h3⟩ := reads_eat c!"ANY" h2
    simp only [Bool.false_eq_true, if_false] at h3 ⊢
    rw [bind_ret e3]
    cases ha : Stream.eat (Stream.skip s) c!"ANY" with
    | some s' =>
      rw [eaten_some ha] at h3 ⊢
      exact ⟨.any, rfl, rfl, fun l hl => (nomatch hl), h3⟩
    | none =>
      rw [eaten_none ha] at h3 ⊢
      exact readSpec_any h3

/-! ### The declaration -/

/-- Between two declarations: entities have names and the root was not chosen. -/
structure Neat (d : MDtd) : Prop where
  named : ∀ e ∈ d.ents, e.name ≠ none
  root  : d.root = none

/-- What a declaration leaves when it is right. -/
def Read (ask : Bool) (b : Dtd × List Char) (ok : Bool) (w : World) : Prop :=
  ok = true ∧ ∃ m : MDtd, m.val = b.1 ∧ Neat m ∧ Any ask b.2 m [] w

/-- What an element declaration leaves when it is wrong. -/
def LostElement (ask : Bool) (w : World) : Prop := ∃ e : MElement, Dead ask e.blocks w

theorem elementsList_any (h : Any ask s d tmp w) :
    ∃ i w', elementsList w = .ret () w' ∧ Any ask s { d with elements := some i } tmp w' := by
  unfold elementsList
  rw [bind_ret h.getD, bind_use (h.mem_dtd (by simp [MDtd.blocks]))]
  cases he : d.elements with
  | some i =>
    refine ⟨i, w, rfl, ?_⟩
    rw [← he]
    exact h
  | none =>
    obtain ⟨i, w1, e1, h1⟩ := h.alloc
    simp only
    rw [bind_ret e1]
    have hm : d.Made := h.elim fun _ h => h.made
    obtain ⟨w2, e2, h2⟩ := h1.setD (d' := { d with elements := some i }) (tmp' := tmp)
      (by simp only [MDtd.blocks, he]; blocks) ⟨by simp, hm.atts, hm.ents, hm.each⟩
    exact ⟨i, w2, e2, h2⟩

theorem repeated_run {name : Text} : ∀ {es : List MElement} {w : World}, (∀ e ∈ es, e.id ∈ w.heap ∧ e.name.id ∈ w.heap) → name.id ∈ w.heap →
    repeated name es w = .ret ((es.map MElement.val).any fun e => cmp (some e.name) (some name.text)) w
  | [], _, _, _ => rfl
  | e :: es, w, he, hn => by
    unfold repeated
    rw [bind_use (he e (by simp)).1, bind_use (he e (by simp)).2, bind_use hn]
    have ih := repeated_run (es := es) (fun e' h' => he e' (by simp [h'])) hn
    simp only [List.map_cons, List.any_cons]
    by_cases hc : cmp (some e.name.text) (some name.text) = true
    · rw [if_pos hc]
      simp [MElement.val, hc, pure_eq]
    · rw [if_neg hc, ih]
      simp [MElement.val, hc]

theorem mem_els {e : MElement} (he : e ∈ d.els) {i : Nat} (hi : i ∈ e.blocks) : i ∈ d.blocks := by
  unfold MDtd.blocks
  have : i ∈ (d.els.map MElement.blocks).flatten := List.mem_flatten.2 ⟨_, List.mem_map.2 ⟨e, he, rfl⟩, hi⟩
  simp [this]

theorem Any.made (h : Any ask s d tmp w) : d.Made := h.elim fun _ h => h.made

theorem elementEnd_any {e : MElement} (h : Any ask s d e.blocks w) (hn : Neat d) (he : e.Made) (hl : d.elements ≠ none) :
    Follows (Read ask) (fun a w' => a = false ∧ (Dead ask [] w' ∧ ¬ (d.val.elements.any fun x => cmp (some x.name) (some e.name.text)) = true ∨
        Dead ask e.blocks w' ∧ (d.val.elements.any fun x => cmp (some x.name) (some e.name.text)) = true))
      (if d.val.elements.any fun x => cmp (some x.name) (some e.name.text) then .error
       else match Dtd.elementEnd s with
         | none => .error
         | some s => .ok ({ d.val with elements := d.val.elements ++ [e.val] }, s)) (elementEnd e w) := by
  unfold elementEnd
  rw [bind_ret h.getD]
  have hr := repeated_run (name := e.name) (es := d.els) (w := w)
    (fun x hx => ⟨h.mem_dtd (mem_els hx (by simp [MElement.blocks])), h.mem_dtd (mem_els hx (by simp [MElement.blocks]))⟩)
    (h.mem_tmp (by simp [MElement.blocks]))
  rw [bind_ret hr]
  have hcv : (List.map MElement.val d.els) = d.val.elements := rfl
  rw [hcv]
  by_cases hd : (d.val.elements.any fun x => cmp (some x.name) (some e.name.text)) = true
  · rw [if_pos hd, if_pos hd]
    obtain ⟨w1, e1, h1⟩ := fail_any h (code := -1) (by decide)
    rw [bind_ret e1]
    exact ⟨rfl, .inr ⟨h1, hd⟩⟩
  · rw [if_neg hd, if_neg hd]
    have hm := h.made
    obtain ⟨w1, e1, h1⟩ := h.setD (d' := { d with els := d.els ++ [e] }) (tmp' := [])
      (by simp only [MDtd.blocks, List.map_append, List.flatten_append, List.map_cons, List.map_nil, List.flatten_cons, List.flatten_nil]; blocks)
      ⟨fun h0 => absurd h0 hl, hm.atts, hm.ents, fun x hx => by
        rcases List.mem_append.1 hx with hx | hx
        · exact hm.each x hx
        · rw [List.mem_singleton.1 hx]
          exact he⟩
    obtain ⟨w2, e2, h2⟩ := reads_skip h1
    obtain ⟨w3, e3, h3⟩ := inspect_any h2 c!">"
    rw [bind_ret e1, bind_ret e2, bind_ret e3]
    have hv : ({ d with els := d.els ++ [e] } : MDtd).val = { d.val with elements := d.val.elements ++ [e.val] } := by
      simp [MDtd.val]
    unfold Dtd.elementEnd
    simp only at h3 ⊢
    cases hi : Stream.inspect (Stream.skip s) c!">" with
    | no =>
      rw [hi] at h3
      obtain ⟨w4, e4, h4⟩ := fail_any h3 (code := -1) (by decide)
      simp only
      rw [bind_ret e4]
      exact ⟨rfl, .inl ⟨h4, hd⟩⟩
    | short =>
      rw [hi] at h3
      exact ⟨rfl, _, hv, ⟨hn.named, hn.root⟩, h3⟩
    | yes s' =>
      rw [hi] at h3
      exact ⟨rfl, _, hv, ⟨hn.named, hn.root⟩, h3⟩

theorem parseElement_any (h : Any ask s d [] w) (hn : Neat d) :
    Follows (Read ask) (fun a w' => a = false ∧ (Dead ask [] w' ∧ ¬ Spec.DtdMem.LosesElement d.val s ∨ LostElement ask w' ∧ Spec.DtdMem.LosesElement d.val s))
      (Dtd.parseElement d.val s) (parseElement w) := by
  unfold parseElement Dtd.parseElement
  obtain ⟨i, w1, e1, h1⟩ := elementsList_any h
  obtain ⟨w2, e2, h2⟩ := reads_skip h1
  obtain ⟨w3, e3, h3⟩ := reads_eat c!"<!ELEMENT" h2
  rw [bind_ret e1, bind_ret e2, bind_ret e3]
  have hv1 : ({ d with elements := some i } : MDtd).val = d.val := rfl
  simp only at h3 ⊢
  cases he : Stream.eat (Stream.skip s) c!"<!ELEMENT" with
  | none =>
    rw [eaten_none he] at h3 ⊢
    obtain ⟨w4, e4, h4⟩ := fail_any h3 (code := -1) (by decide)
    simp only [Bool.false_eq_true, if_false]
    rw [bind_ret e4]
    refine ⟨rfl, .inl ⟨h4, ?_⟩⟩
    rintro ⟨_, _, hx, _⟩
    rw [he] at hx
    cases hx
  | some s1 =>
    rw [eaten_some he] at h3 ⊢
    obtain ⟨w4, e4, h4⟩ := reads_skip h3
    simp only [if_true] at h4 ⊢
    rw [bind_ret e4]
    have hg := getUntil_any h4 false [c!">", c!"(", c!" "]
    cases hu : Stream.getUntil [c!">", c!"(", c!" "] (Stream.skip s1) with
    | none =>
      rw [hu] at hg
      obtain ⟨w5, e5, h5⟩ := fail_any h4 (code := -1) (by decide)
      rw [bind_ret hg]
      simp only
      rw [bind_ret e5]
      refine ⟨rfl, .inl ⟨h5, ?_⟩⟩
      rintro ⟨_, _, hx, hy, _⟩
      rw [he] at hx
      cases hx
      rw [hu] at hy
      cases hy
    | some f =>
      rw [hu] at hg
      obtain ⟨id, w5, e5, h5⟩ := hg
      rw [bind_ret e5]
      simp only [Bool.false_eq_true, if_false] at h5 ⊢
      by_cases hc : f.chunk = 0
      · rw [if_pos hc, if_pos hc]
        obtain ⟨w6, e6, h6⟩ := fail_any h5.any (code := -1) (by decide)
        rw [bind_ret e6]
        refine ⟨rfl, .inl ⟨h6, ?_⟩⟩
        rintro ⟨_, f', hx, hy, hz, _⟩
        rw [he] at hx
        cases hx
        rw [hu] at hy
        cases hy
        exact hz hc
      · rw [if_neg hc, if_neg hc]
        obtain ⟨w6, e6, h6, _⟩ := nullify_at h5
        obtain ⟨el, w7, e7, h7⟩ := h6.any.alloc
        rw [bind_ret e6, bind_ret e7]
        rcases (elementType_any h7).cases with
          ⟨⟨t, s8⟩, a, w8, hX, hY, m, rfl, hv, hm, h8⟩ | ⟨a, w8, hX, hY, rfl, l, h8⟩ | ⟨hX, hY⟩ | ⟨hX, hY⟩
        · rw [bind_ret hY, hX]
          simp only at hv h8 ⊢
          have := elementEnd_any (e := ⟨el, ⟨id, toStr f.text⟩, m⟩) (h8.perm (by simp only [MElement.blocks, Option.toList]; blocks))
            (d := { d with elements := some i }) ⟨hn.named, hn.root⟩ hm (by simp)
          simp only [hv1] at this
          simp only [MElement.val, hv] at this
          refine this.imp (fun _ _ _ h => h) ?_
          rintro a w' ⟨rfl, ⟨hx, hy⟩ | ⟨hx, hy⟩⟩
          · refine ⟨rfl, .inl ⟨hx, ?_⟩⟩
            rintro ⟨_, f', hx, hy', hz, h9⟩
            rw [he] at hx
            cases hx
            rw [hu] at hy'
            cases hy'
            rcases h9 with h9 | ⟨_, _, h9⟩
            · rw [hX] at h9
              cases h9
            · exact hy h9
          · exact ⟨rfl, .inr ⟨⟨_, hx⟩, s1, f, he, hu, hc, .inr ⟨_, hX, hy⟩⟩⟩
        · rw [bind_ret hY, hX]
          refine ⟨rfl, .inr ⟨⟨⟨el, ⟨id, toStr f.text⟩, .children l⟩, h8.perm ?_⟩, s1, f, he, hu, hc, .inl hX⟩⟩
          simp only [MElement.blocks, MType.blocks, MType.list, Option.toList]
          blocks
        · rw [bind_ub hY, hX]
          trivial
        · rw [bind_loop hY, hX]
          trivial

end

end DtdMem
end Axl
