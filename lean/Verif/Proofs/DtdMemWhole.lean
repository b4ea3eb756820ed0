/-
Entity declarations, the root and the whole of `axl_dtd_parse`: the parser over the memory does what the one over the text
does, and what is left in memory.
-/
import Verif.Proofs.DtdMemAttlist

namespace Axl
namespace DtdMem
open Str Dtd

section
variable {ask : Bool} {s : List Char} {m : MDtd} {tmp tmp' : List Nat} {last : Option Nat} {w : World}

/-! ### Entities -/

theorem entitiesList_any (h : Any ask s m tmp w) :
    ∃ i w', entitiesList w = .ret () w' ∧ Any ask s { m with entities := some i } tmp w' := by
  unfold entitiesList
  rw [bind_ret h.getD, bind_use (h.mem_dtd (by simp [MDtd.blocks]))]
  cases he : m.entities with
  | some i =>
    refine ⟨i, w, rfl, ?_⟩
    rw [← he]
    exact h
  | none =>
    obtain ⟨i, w1, e1, h1⟩ := h.alloc
    simp only
    rw [bind_ret e1]
    have hm := h.made
    obtain ⟨w2, e2, h2⟩ := h1.setD (d' := { m with entities := some i }) (tmp' := tmp)
      (by simp only [MDtd.blocks, he]; blocks) ⟨hm.els, hm.atts, by simp, hm.each⟩
    exact ⟨i, w2, e2, h2⟩

theorem Any.setEnts (h : Any ask s m tmp w) {es es' : List MEntity} (hm : m.ents = es) (hl : m.entities ≠ none)
    (p : ((es.map MEntity.blocks).flatten ++ tmp).Perm ((es'.map MEntity.blocks).flatten ++ tmp')) :
    ∃ w', DtdMem.setD { m with ents := es' } w = .ret () w' ∧ Any ask s { m with ents := es' } tmp' w' := by
  have hmade := h.made
  refine h.setD ?_ ⟨hmade.els, hmade.atts, fun h0 => absurd h0 hl, hmade.each⟩
  simp only [MDtd.blocks, hm]
  rw [List.perm_iff_count] at p ⊢
  intro i
  have := p i
  simp only [List.count_append, List.count_cons] at this ⊢
  omega

theorem setEntity_any {es : List MEntity} {e0 e : MEntity} (h : Any ask s m tmp w) (hm : m.ents = es ++ [e0]) (hl : m.entities ≠ none)
    (hid : e.id = e0.id) (p : (e0.blocks ++ tmp).Perm (e.blocks ++ tmp')) :
    ∃ w', setEntity e w = .ret () w' ∧ Any ask s { m with ents := es ++ [e] } tmp' w' := by
  unfold setEntity
  rw [hid, bind_use (h.mem_dtd (mem_ents (e := e0) (by simp [hm]) (by simp [MEntity.blocks]))), bind_ret h.getD, hm]
  simp only [List.dropLast_concat]
  refine h.setEnts hm hl ?_
  simp only [List.map_append, List.map_cons, List.map_nil, List.flatten_append, List.flatten_cons, List.flatten_nil]
  rw [List.perm_iff_count] at p ⊢
  intro i
  have := p i
  simp only [List.count_append, List.count_nil] at this ⊢
  omega

/-- The type of an entity over the text, once white space was consumed. -/
def typed (s : List Char) : EntityType × List Char :=
  match Stream.eat s c!"%" with
  | some s => (.parameter, Stream.skip s)
  | none => (.general, s)

theorem reads_entityType : Reads entityType typed := by
  refine Reads.of_eq ((reads_eat c!"%").bind fun a => Reads.ite a (reads_skip.bind fun _ => .pure EntityType.parameter) (.pure EntityType.general)) fun s => ?_
  unfold typed
  cases h1 : Stream.eat s c!"%" with
  | some r => simp [eaten_some h1]
  | none => simp [eaten_none h1]

theorem skip_skip (s : List Char) : Stream.skip (Stream.skip s) = Stream.skip s := by
  unfold Stream.skip
  induction s with
  | nil => rfl
  | cons c s ih =>
    by_cases hc : isWhite c = true
    · simp only [List.dropWhile_cons, hc, if_true]
      exact ih
    · simp only [List.dropWhile_cons, hc]
      simp [hc]

/-- A chunk that is there leaves the stream without the string read before. -/
theorem eat_at (h : Any ask s m tmp w) (chunk : List Char) :
    match Stream.eat s chunk with
    | none => ∃ w', eat chunk w = .ret false w' ∧ Any ask s m tmp w'
    | some r => ∃ w', eat chunk w = .ret true w' ∧ At ask r m tmp none w' := by
  obtain ⟨last, h⟩ := h
  obtain ⟨w', e, h'⟩ := inspect_at h chunk
  unfold eat Stream.eat
  rw [bind_ret e]
  cases hi : Stream.inspect s chunk with
  | yes r =>
    rw [hi] at h'
    exact ⟨w', rfl, h'⟩
  | no =>
    rw [hi] at h'
    exact ⟨w', rfl, last, h' ▸ h⟩
  | short =>
    rw [hi] at h'
    exact ⟨w', rfl, last, h' ▸ h⟩

theorem quote_at (h : Any ask s m tmp w) :
    match Parse.quote s with
    | none => ∃ w', quote w = .ret none w' ∧ Any ask s m tmp w'
    | some (q, r) => ∃ w', quote w = .ret (some q) w' ∧ At ask r m tmp none w' := by
  unfold quote Parse.quote
  have h1 := eat_at h c!"\""
  cases he : Stream.eat s c!"\"" with
  | some r =>
    rw [he] at h1
    obtain ⟨w1, e1, h1⟩ := h1
    rw [bind_ret e1]
    exact ⟨w1, rfl, h1⟩
  | none =>
    rw [he] at h1
    obtain ⟨w1, e1, h1⟩ := h1
    rw [bind_ret e1]
    simp only [Bool.false_eq_true, if_false]
    have h2 := eat_at h1 c!"'"
    cases he2 : Stream.eat s c!"'" with
    | some r =>
      rw [he2] at h2
      obtain ⟨w2, e2, h2⟩ := h2
      rw [bind_ret e2]
      exact ⟨w2, rfl, h2⟩
    | none =>
      rw [he2] at h2
      obtain ⟨w2, e2, h2⟩ := h2
      rw [bind_ret e2]
      exact ⟨w2, rfl, h2⟩

theorem entityContent_any {es : List MEntity} {e : MEntity} (h : Any ask s m [] w) (hm : m.ents = es ++ [e]) (hl : m.entities ≠ none)
    (hc : e.content = none) :
    match Dtd.entityContent s with
    | none => ∃ w', entityContent e w = .ret false w' ∧ Dead ask [] w'
    | some (content, s') => ∃ (e' : MEntity) (w' : World), entityContent e w = .ret true w' ∧ e'.val = { e.val with content := content } ∧ e'.name = e.name ∧
        Any ask s' { m with ents := es ++ [e'] } [] w' := by
  unfold entityContent Dtd.entityContent
  have hself : ({ m with ents := es ++ [e] } : MDtd) = m := by rw [← hm]
  have hval : e.val = { e.val with content := none } := by simp [MEntity.val, hc]
  obtain ⟨w1, e1, h1⟩ := reads_eat c!"PUBLIC" h
  rw [bind_ret e1]
  cases hp : Stream.eat s c!"PUBLIC" with
  | some s' =>
    rw [eaten_some hp] at h1 ⊢
    exact ⟨e, w1, rfl, hval, rfl, by rw [hself]; exact h1⟩
  | none =>
    rw [eaten_none hp] at h1 ⊢
    obtain ⟨w2, e2, h2⟩ := reads_eat c!"SYSTEM" h1
    simp only [Bool.false_eq_true, if_false] at h2 ⊢
    rw [bind_ret e2]
    cases hs : Stream.eat s c!"SYSTEM" with
    | some s' =>
      rw [eaten_some hs] at h2 ⊢
      exact ⟨e, w2, rfl, hval, rfl, by rw [hself]; exact h2⟩
    | none =>
      rw [eaten_none hs] at h2 ⊢
      simp only [Bool.false_eq_true, if_false] at h2 ⊢
      have h3 := quote_at h2
      cases hq : Parse.quote s with
      | none =>
        rw [hq] at h3
        obtain ⟨w3, e3, h3⟩ := h3
        obtain ⟨w4, e4, h4⟩ := fail_any h3 (code := -2) (by decide)
        rw [bind_ret e3]
        simp only
        rw [bind_ret e4]
        exact ⟨w4, rfl, h4⟩
      | some r =>
        obtain ⟨q, s1⟩ := r
        rw [hq] at h3
        obtain ⟨w3, e3, h3⟩ := h3
        rw [bind_ret e3]
        simp only
        have hg := getUntil_any h3.any true [[q]]
        unfold Parse.attrValue
        cases hu : Stream.getUntil [[q]] s1 with
        | none =>
          rw [hu] at hg
          simp only
          obtain ⟨w5, e5, h5, _⟩ := nullify_at h3
          obtain ⟨w6, e6, h6⟩ := setEntity_any (e := { e with content := none }) (tmp' := []) h5.any hm hl rfl
            (by simp only [MEntity.blocks, hc, Option.map_none, Option.toList]; blocks)
          rw [bind_ret hg, bind_ret e5]
          simp only [Option.map_none]
          rw [bind_ret e6]
          exact ⟨{ e with content := none }, w6, rfl, rfl, rfl, h6⟩
        | some f =>
          rw [hu] at hg
          obtain ⟨id, w4, e4, h4⟩ := hg
          simp only [if_true] at h4 ⊢
          obtain ⟨w5, e5, h5, _⟩ := nullify_at h4
          obtain ⟨w6, e6, h6⟩ := setEntity_any (e := { e with content := some ⟨id, toStr f.text⟩ }) (tmp' := []) h5.any hm hl rfl
            (by simp only [MEntity.blocks, hc, Option.map_none, Option.map_some, Option.toList]; blocks)
          rw [bind_ret e4, bind_ret e5]
          simp only [Option.map_some]
          rw [bind_ret e6]
          exact ⟨{ e with content := some ⟨id, toStr f.text⟩ }, w6, rfl, rfl, rfl, h6⟩

theorem parseEntity_any (h : Any ask s m [] w) (hn : Neat m) :
    Follows (Read ask) (fun ok w' => ok = false ∧ Dead ask [] w') (Dtd.parseEntity m.val s) (parseEntity w) := by
  unfold parseEntity Dtd.parseEntity
  obtain ⟨i, w1, e1, h1⟩ := entitiesList_any h
  obtain ⟨w2, e2, h2⟩ := reads_skip h1
  obtain ⟨w3, e3, h3⟩ := reads_eat c!"<!ENTITY" h2
  rw [bind_ret e1, bind_ret e2, bind_ret e3]
  simp only at h3 ⊢
  cases he : Stream.eat (Stream.skip s) c!"<!ENTITY" with
  | none =>
    rw [eaten_none he] at h3 ⊢
    obtain ⟨w4, e4, h4⟩ := fail_any h3 (code := -1) (by decide)
    simp only [Bool.false_eq_true, if_false]
    rw [bind_ret e4]
    exact ⟨rfl, h4⟩
  | some s1 =>
    rw [eaten_some he] at h3 ⊢
    obtain ⟨w4, e4, h4⟩ := reads_skip h3
    obtain ⟨id, w5, e5, h5⟩ := h4.alloc
    obtain ⟨w6, e6, h6⟩ := h5.setEnts (es' := m.ents ++ [⟨id, .general, none, none⟩]) (tmp' := []) rfl (by simp)
      (by
        simp only [List.map_append, List.map_cons, List.map_nil, List.flatten_append, List.flatten_cons, List.flatten_nil, MEntity.blocks, Option.map_none, Option.toList]
        blocks)
    obtain ⟨w7, e7, h7⟩ := reads_entityType h6
    simp only [if_true] at h7 ⊢
    rw [bind_ret e4, bind_ret e5, bind_ret h5.getD, bind_ret e6, bind_ret e7]
    have htype : Dtd.entityType s1 = typed (Stream.skip s1) := rfl
    rw [htype]
    generalize typed (Stream.skip s1) = ts at h7 ⊢
    obtain ⟨type, s2⟩ := ts
    simp only at h7 ⊢
    have hg := getUntil_any h7 false [c!" "]
    cases hu : Stream.getUntil [c!" "] s2 with
    | none =>
      rw [hu] at hg
      obtain ⟨w8, e8, h8⟩ := fail_any h7 (code := -1) (by decide)
      rw [bind_ret hg]
      simp only
      rw [bind_ret e8]
      exact ⟨rfl, h8⟩
    | some f =>
      rw [hu] at hg
      obtain ⟨nid, w8, e8, h8⟩ := hg
      simp only [Bool.false_eq_true, if_false] at h8
      obtain ⟨w9, e9, h9, _⟩ := nullify_at h8
      obtain ⟨w10, e10, h10⟩ := setEntity_any (es := m.ents) (e0 := ⟨id, .general, none, none⟩) (e := ⟨id, type, some ⟨nid, toStr f.text⟩, none⟩) (tmp' := [])
        h9.any rfl (by simp) rfl (by simp only [MEntity.blocks, Option.map_none, Option.map_some, Option.toList]; blocks)
      obtain ⟨w11, e11, h11⟩ := reads_skip h10
      rw [bind_ret e8]
      simp only
      rw [bind_ret e9, bind_ret e10, bind_ret e11]
      simp only at h11
      have hcon := entityContent_any h11 rfl (by simp) rfl
      cases hc : Dtd.entityContent (Stream.skip f.at_) with
      | none =>
        rw [hc] at hcon
        obtain ⟨w12, e12, h12⟩ := hcon
        rw [bind_ret e12]
        exact ⟨rfl, h12⟩
      | some r =>
        obtain ⟨content, s3⟩ := r
        rw [hc] at hcon
        obtain ⟨e', w12, e12, hv, hname, h12⟩ := hcon
        obtain ⟨w13, e13, h13⟩ := reads_skip h12
        obtain ⟨w14, e14, h14⟩ := reads_eat c!">" h13
        rw [bind_ret e12]
        simp only [if_true] at h14 ⊢
        rw [bind_ret e13, bind_ret e14]
        cases hgt : Stream.eat (Stream.skip s3) c!">" with
        | none =>
          rw [eaten_none hgt] at h14 ⊢
          obtain ⟨w15, e15, h15⟩ := fail_any h14 (code := -2) (by decide)
          simp only [Bool.false_eq_true, if_false]
          rw [bind_ret e15]
          exact ⟨rfl, h15⟩
        | some s4 =>
          rw [eaten_some hgt] at h14 ⊢
          refine ⟨rfl, { m with entities := some i, ents := m.ents ++ [e'] }, ?_, ⟨?_, hn.root⟩, h14⟩
          · have hv' : e'.val = ⟨toStr f.text, type, content⟩ := hv
            simp [MDtd.val, hv']
          · intro x hx
            simp only [List.mem_append, List.mem_singleton] at hx
            rcases hx with hx | rfl
            · exact hn.named x hx
            · rw [hname]
              simp

/-! ### The root -/

mutual
theorem count_val : ∀ (p : MPart), p.count = p.val.count
  | .node _ _ _ => by simp [MPart.count, MPart.val, Part.count]
  | .list _ _ _ _ _ parts => by simp [MPart.count, MPart.val, Part.count, countAll_val parts]
theorem countAll_val : ∀ (ps : List MPart), countAll ps = Dtd.countAll (partsVal ps)
  | [] => by simp [countAll, partsVal, Dtd.countAll]
  | p :: ps => by simp [countAll, partsVal, Dtd.countAll, count_val p, countAll_val ps]
end

theorem partsBlocks_reverse (ps : List MPart) {i : Nat} : i ∈ partsBlocks ps.reverse ↔ i ∈ partsBlocks ps := by
  induction ps with
  | nil => rfl
  | cons p ps ih => simp [partsBlocks_append, partsBlocks, ih, or_comm]

theorem partsVal_reverse (ps : List MPart) : partsVal ps.reverse = (partsVal ps).reverse := by
  simp [partsVal_map]

/-- A question is answered and the memory stays. -/
def Asks {α β : Type} (f : α → β) (r : Res β) (o : Out α) (w : World) : Prop := Follows (fun b a w' => f a = b ∧ w' = w) (fun _ _ => False) r o

theorem isParentLoop_run {name : Text} {w : World} (hn : name.id ∈ w.heap) : ∀ {fuel : Nat} {stack : List MPart}, (∀ i ∈ partsBlocks stack, i ∈ w.heap) →
    Asks id (Dtd.isParentLoop name.text fuel (partsVal stack)) (isParentLoop name fuel stack w) w
  | 0, _, _ => trivial
  | _ + 1, [], _ => trivial
  | fuel + 1, .node id _ n :: stack, h => by
    unfold isParentLoop
    simp only [partsVal, MPart.val]
    unfold Dtd.isParentLoop
    rw [bind_use (h id (by simp [partsBlocks, MPart.blocks])), bind_use (h n.id (by simp [partsBlocks, MPart.blocks])), bind_use hn]
    have ih := isParentLoop_run hn (fuel := fuel) (stack := stack) (fun i hi => h i (by simp [partsBlocks, hi]))
    have hemp : (partsVal stack).isEmpty = stack.isEmpty := by
      rw [partsVal_map]
      simp
    rw [hemp]
    by_cases hc : cmp (some n.text) (some name.text) = true
    · rw [if_pos hc, if_pos hc]
      exact ⟨rfl, rfl⟩
    · rw [if_neg hc, if_neg hc]
      by_cases hs : stack.isEmpty = true
      · rw [if_pos hs, if_pos hs]
        exact ⟨rfl, rfl⟩
      · rw [if_neg hs, if_neg hs]
        exact ih
  | fuel + 1, .list id l _ _ itemList parts :: stack, h => by
    unfold isParentLoop
    simp only [partsVal, MPart.val]
    unfold Dtd.isParentLoop
    rw [bind_use (h id (by simp [partsBlocks, MPart.blocks])), bind_use (h l (by simp [partsBlocks, MPart.blocks]))]
    have ih := isParentLoop_run hn (fuel := fuel) (stack := parts.reverse ++ stack) (fun i hi => by
      rw [partsBlocks_append] at hi
      rcases List.mem_append.1 hi with hi | hi
      · exact h i (by simp [partsBlocks, MPart.blocks, (partsBlocks_reverse parts).1 hi])
      · exact h i (by simp [partsBlocks, hi]))
    have hval : partsVal (parts.reverse ++ stack) = (partsVal parts).reverse ++ partsVal stack := by
      rw [partsVal_append, partsVal_reverse]
    rw [hval] at ih
    have hemp : ((partsVal parts).reverse ++ partsVal stack).isEmpty = (parts.reverse ++ stack).isEmpty := by
      rw [← hval, partsVal_map, List.isEmpty_map]
    rw [hemp]
    have hgo : Asks _root_.id (if (parts.reverse ++ stack).isEmpty = true then .ok false
          else Dtd.isParentLoop name.text fuel ((partsVal parts).reverse ++ partsVal stack))
        ((if (parts.reverse ++ stack).isEmpty = true then pure false else isParentLoop name fuel (parts.reverse ++ stack) : M Bool) w) w := by
      by_cases hs : (parts.reverse ++ stack).isEmpty = true
      · rw [if_pos hs, if_pos hs]
        exact ⟨rfl, rfl⟩
      · rw [if_neg hs, if_neg hs]
        exact ih
    cases itemList with
    | none => exact hgo
    | some i =>
      simp only
      rw [bind_use (h i (by simp [partsBlocks, MPart.blocks]))]
      exact hgo

theorem isParent_any {parent child : MElement} (h : Any ask s m tmp w) (hp : parent ∈ m.els) (hc : child ∈ m.els) :
    Follows (fun b a w' => a = b ∧ Any ask s m tmp w') (fun _ _ => False) (Dtd.isParent parent.val child.val) (isParent parent child w) := by
  unfold isParent Dtd.isParent
  rw [bind_use (h.mem_dtd (mem_els hp (by simp [MElement.blocks]))), bind_use (h.mem_dtd (mem_els hc (by simp [MElement.blocks])))]
  have hlist : parent.val.list = parent.type.list.map MContent.val := by
    unfold Element.list MElement.val
    cases parent.type <;> rfl
  rw [hlist]
  cases hl : parent.type.list with
  | none => exact ⟨rfl, h⟩
  | some l =>
    have hb : ∀ i ∈ l.blocks, i ∈ m.blocks := fun i hi => mem_els hp (by simp [MElement.blocks, MType.blocks, hl, hi])
    simp only [Option.map_some]
    rw [bind_use (h.mem_dtd (hb _ (by simp [MContent.blocks])))]
    have hmade := (h.made.each parent hp) l hl
    have hemp : l.val.items.isEmpty = l.itemList.isNone := by
      show (partsVal l.parts).isEmpty = _
      rw [partsVal_map]
      cases hi : l.itemList with
      | none => simp [hmade.1.1 hi]
      | some i =>
        have : l.parts ≠ [] := fun h0 => by
          rw [hmade.1.2 h0] at hi
          cases hi
        simp [this]
    rw [hemp]
    cases hi : l.itemList with
    | none => exact ⟨rfl, h⟩
    | some i =>
      simp only [Option.isNone_some, Bool.false_eq_true, if_false]
      obtain ⟨st, w1, e1, h1⟩ := h.alloc
      rw [bind_ret e1, bind_use (h1.mem_dtd (hb _ (by simp [MContent.blocks, hi])))]
      have hrun := isParentLoop_run (name := child.name) (w := w1) (h1.mem_dtd (mem_els hc (by simp [MElement.blocks])))
        (fuel := countAll l.parts + 1) (stack := l.parts.reverse)
        (fun j hj => h1.mem_dtd (hb _ (by simp [MContent.blocks, (partsBlocks_reverse _).1 hj])))
      rw [partsVal_reverse, countAll_val] at hrun
      rcases hrun.cases with ⟨b, a, w2, hX, hY, rfl, rfl⟩ | ⟨_, _, _, _, hf⟩ | ⟨hX, hY⟩ | ⟨hX, hY⟩
      · obtain ⟨w3, e3, h3⟩ := (frees_free st).any (tmp := tmp) h1
        rw [countAll_val, bind_ret hY, bind_ret e3]
        have : Dtd.isParentLoop child.val.name (Dtd.countAll l.val.items + 1) l.val.items.reverse = .ok (id a) := hX
        rw [this]
        exact ⟨rfl, h3⟩
      · exact hf.elim
      · rw [countAll_val, bind_ub hY]
        have : Dtd.isParentLoop child.val.name (Dtd.countAll l.val.items + 1) l.val.items.reverse = .ub := hX
        rw [this]
        trivial
      · rw [countAll_val, bind_loop hY]
        have : Dtd.isParentLoop child.val.name (Dtd.countAll l.val.items + 1) l.val.items.reverse = .loop := hX
        rw [this]
        trivial

theorem rootRound_any {ask : Bool} {s : List Char} {m : MDtd} {tmp : List Nat} : ∀ {es : List MElement} {root : MElement} {changed : Bool} {w : World},
    Any ask s m tmp w → (∀ e ∈ es, e ∈ m.els) → root ∈ m.els →
    Follows (fun (b : Element × Bool) (a : MElement × Bool) w' => a.1.val = b.1 ∧ a.2 = b.2 ∧ a.1 ∈ m.els ∧ Any ask s m tmp w') (fun _ _ => False)
      (Dtd.rootRound (es.map MElement.val) root.val changed) (rootRound es root changed w)
  | [], root, changed, w, h, _, hr => ⟨rfl, rfl, hr, h⟩
  | e :: es, root, changed, w, h, he, hr => by
    unfold rootRound
    simp only [List.map_cons]
    unfold Dtd.rootRound
    rcases (isParent_any h (he e (by simp)) hr).cases with ⟨b, a, w1, hX, hY, rfl, h1⟩ | ⟨_, _, _, _, hf⟩ | ⟨hX, hY⟩ | ⟨hX, hY⟩
    · rw [bind_ret hY, hX]
      cases a with
      | true => exact rootRound_any h1 (fun x hx => he x (by simp [hx])) (he e (by simp))
      | false => exact rootRound_any h1 (fun x hx => he x (by simp [hx])) hr
    · exact hf.elim
    · rw [bind_ub hY, hX]
      trivial
    · rw [bind_loop hY, hX]
      trivial

theorem newRoot_any {ask : Bool} {s : List Char} {m : MDtd} {tmp : List Nat} {es : List MElement} (he : ∀ e ∈ es, e ∈ m.els) :
    ∀ {fuel : Nat} {root : MElement} {w : World}, Any ask s m tmp w → root ∈ m.els →
    Follows (fun (b : Element) (a : MElement) w' => a.val = b ∧ Any ask s m tmp w') (fun _ _ => False)
      (Dtd.newRoot (es.map MElement.val) fuel root.val) (newRoot es fuel root w)
  | 0, _, _, _, _ => trivial
  | fuel + 1, root, w, h, hr => by
    unfold newRoot Dtd.newRoot
    rcases (rootRound_any (changed := false) h he hr).cases with ⟨⟨b1, b2⟩, ⟨a1, a2⟩, w1, hX, hY, hv, hc, hm1, h1⟩ | ⟨_, _, _, _, hf⟩ | ⟨hX, hY⟩ | ⟨hX, hY⟩
    · simp only at hv hc hm1 h1
      subst hv hc
      rw [bind_ret hY, hX]
      cases a2 with
      | true => exact newRoot_any he h1 hm1
      | false => exact ⟨rfl, h1⟩
    · exact hf.elim
    · rw [bind_ub hY, hX]
      trivial
    · rw [bind_loop hY, hX]
      trivial

/-! ### Comments -/

theorem comments_any {ask : Bool} {m : MDtd} {tmp : List Nat} : ∀ {fuel : Nat} {st : Parse.St} {s : List Char} {w : World}, Any ask s m tmp w →
    Follows (fun (b : Parse.St × List Char) ok w' => ok = true ∧ Any ask b.2 m tmp w') (fun ok w' => ok = false ∧ Dead ask tmp w')
      (Parse.comments false fuel st s) (comments fuel w)
  | 0, _, _, _, _ => trivial
  | fuel + 1, st, s, w, h => by
    unfold comments Parse.comments
    obtain ⟨w1, e1, h1⟩ := reads_skip h
    obtain ⟨w2, e2, h2⟩ := reads_eat c!"<!--" h1
    rw [bind_ret e1, bind_ret e2]
    simp only at h2 ⊢
    unfold Parse.comment Parse.instruction
    cases he : Stream.eat (Stream.skip s) c!"<!--" with
    | none =>
      rw [eaten_none he] at h2 ⊢
      obtain ⟨w3, e3, h3⟩ := reads_skip h2
      simp only [Bool.false_eq_true, if_false] at h3 ⊢
      rw [bind_ret e3]
      simp only [skip_skip] at h3
      show Follows _ _ (.ok (st, Stream.skip (Stream.skip (Stream.skip s)))) _
      rw [skip_skip, skip_skip]
      exact ⟨rfl, h3⟩
    | some s1 =>
      rw [eaten_some he] at h2 ⊢
      obtain ⟨w3, e3, h3⟩ := getUntilRef_any h2 [c!"-->"]
      simp only [if_true] at h3 ⊢
      rw [bind_ret e3]
      generalize Stream.getUntilRef [c!"-->"] s1 = g at h3 ⊢
      obtain ⟨o, s2⟩ := g
      cases o with
      | none =>
        obtain ⟨w4, e4, h4⟩ := fail_any h3 (code := -1) (by decide)
        simp only [Option.isSome_none, Bool.false_eq_true, if_false]
        rw [bind_ret e4]
        exact ⟨rfl, h4⟩
      | some text =>
        obtain ⟨w4, e4, h4⟩ := reads_skip h3
        simp only [Option.isSome_some, if_true] at h4 ⊢
        rw [bind_ret e4]
        exact comments_any h4

theorem dtdComments_any (h : Any ask s m tmp w) :
    Follows (fun s' ok w' => ok = true ∧ Any ask s' m tmp w') (fun ok w' => ok = false ∧ Dead ask tmp w') (dtdComments s) (comments (s.length + 1) w) := by
  unfold dtdComments
  rcases (comments_any (fuel := s.length + 1) (st := ⟨[], none, [], [], []⟩) h).cases with ⟨⟨_, s'⟩, a, w1, hX, hY, rfl, h1⟩ | ⟨_, _, hX, hY, rfl, h1⟩ | ⟨hX, hY⟩ | ⟨hX, hY⟩
  · rw [hX, hY]
    exact ⟨rfl, h1⟩
  · rw [hX, hY]
    exact ⟨rfl, h1⟩
  · rw [hX, hY]
    trivial
  · rw [hX, hY]
    trivial

/-! ### Declarations -/

/-- What is left when a declaration is wrong: nothing, or an element when memory is lost. -/
def Wrong (ask : Bool) (loses : Prop) (w : World) : Prop := Dead ask [] w ∧ ¬ loses ∨ LostElement ask w ∧ loses

theorem Wrong.iff {loses loses' : Prop} (h : Wrong ask loses w) (hi : loses ↔ loses') : Wrong ask loses' w := by
  unfold Wrong at *
  rwa [← hi]

theorem declaration_any {fuel : Nat} (h : Any ask s m [] w) (hn : Neat m) :
    match Dtd.declaration fuel m.val s with
    | none => ∃ w', declaration fuel w = .ret none w' ∧ Any ask s m [] w'
    | some r => Follows (fun b (o : Option Bool) w' => ∃ ok, o = some ok ∧ Read ask b ok w')
        (fun o w' => o = some false ∧ Wrong ask (Stream.peek s c!"<!ELEMENT" = true ∧ Spec.DtdMem.LosesElement m.val s) w') r (declaration fuel w) := by
  unfold declaration Dtd.declaration
  obtain ⟨w1, e1, h1⟩ := reads_peek c!"<!ELEMENT" h
  rw [bind_ret e1]
  simp only at h1 ⊢
  by_cases hp : Stream.peek s c!"<!ELEMENT" = true
  · rw [if_pos hp, if_pos hp]
    simp only
    rcases (parseElement_any h1 hn).cases with ⟨b, a, w2, hX, hY, h2⟩ | ⟨_, w2, hX, hY, rfl, h2⟩ | ⟨hX, hY⟩ | ⟨hX, hY⟩
    · rw [hX, bind_ret hY]
      exact ⟨a, rfl, h2⟩
    · rw [hX, bind_ret hY]
      refine ⟨rfl, ?_⟩
      rcases h2 with ⟨h2, h3⟩ | ⟨h2, h3⟩
      · exact .inl ⟨h2, fun hx => h3 hx.2⟩
      · exact .inr ⟨h2, hp, h3⟩
    · rw [hX, bind_ub hY]
      trivial
    · rw [hX, bind_loop hY]
      trivial
  · rw [if_neg hp, if_neg hp]
    obtain ⟨w2, e2, h2⟩ := reads_eat c!"<!ATTLIST" h1
    rw [bind_ret e2]
    cases ha : Stream.eat s c!"<!ATTLIST" with
    | some s1 =>
      rw [eaten_some ha] at h2 ⊢
      simp only [if_true] at h2 ⊢
      rcases (parseAttlist_any (fuel := fuel) h2 hn).cases with ⟨b, a, w3, hX, hY, h3⟩ | ⟨_, w3, hX, hY, rfl, h3⟩ | ⟨hX, hY⟩ | ⟨hX, hY⟩
      · rw [hX, bind_ret hY]
        exact ⟨a, rfl, h3⟩
      · rw [hX, bind_ret hY]
        exact ⟨rfl, .inl ⟨h3, fun hx => hp hx.1⟩⟩
      · rw [hX, bind_ub hY]
        trivial
      · rw [hX, bind_loop hY]
        trivial
    | none =>
      rw [eaten_none ha] at h2 ⊢
      simp only [Bool.false_eq_true, if_false] at h2 ⊢
      obtain ⟨w3, e3, h3⟩ := reads_peek c!"<!ENTITY" h2
      rw [bind_ret e3]
      simp only at h3 ⊢
      by_cases hq : Stream.peek s c!"<!ENTITY" = true
      · rw [if_pos hq, if_pos hq]
        simp only
        rcases (parseEntity_any h3 hn).cases with ⟨b, a, w4, hX, hY, h4⟩ | ⟨_, w4, hX, hY, rfl, h4⟩ | ⟨hX, hY⟩ | ⟨hX, hY⟩
        · rw [hX, bind_ret hY]
          exact ⟨a, rfl, h4⟩
        · rw [hX, bind_ret hY]
          exact ⟨rfl, .inl ⟨h4, fun hx => hp hx.1⟩⟩
        · rw [hX, bind_ub hY]
          trivial
        · rw [hX, bind_loop hY]
          trivial
      · rw [if_neg hq, if_neg hq]
        exact ⟨w3, rfl, h3⟩

/-- After the comments there is no white space and no comment. -/
theorem comments_end : ∀ {fuel : Nat} {st st' : Parse.St} {s s' : List Char}, Parse.comments false fuel st s = .ok (st', s') →
    Stream.skip s' = s' ∧ Stream.eat s' c!"<!--" = none
  | 0, _, _, _, _, h => nomatch h
  | fuel + 1, st, st', s, s', h => by
    unfold Parse.comments Parse.comment Parse.instruction at h
    cases he : Stream.eat (Stream.skip s) c!"<!--" with
    | none =>
      rw [he] at h
      have h' : (Res.ok (st, Stream.skip (Stream.skip (Stream.skip s))) : Res (Parse.St × List Char)) = .ok (st', s') := h
      simp only [skip_skip, Res.ok.injEq, Prod.mk.injEq] at h'
      rw [← h'.2, skip_skip]
      exact ⟨rfl, he⟩
    | some s1 =>
      rw [he] at h
      simp only at h
      generalize Stream.getUntilRef [c!"-->"] s1 = g at h
      obtain ⟨o, s2⟩ := g
      cases o with
      | none => cases h
      | some text => exact comments_end h

theorem dtdComments_again {s s' : List Char} (h : dtdComments s = .ok s') : dtdComments s' = .ok s' := by
  unfold dtdComments at h
  have : Stream.skip s' = s' ∧ Stream.eat s' c!"<!--" = none := by
    split at h
    · rename_i hc
      cases h
      exact comments_end hc
    all_goals cases h
  unfold dtdComments
  unfold Parse.comments Parse.comment Parse.instruction
  simp only [this.1, this.2]
  show (Res.ok (Stream.skip (Stream.skip s')) : Res (List Char)) = _
  rw [this.1, this.1]

open Spec.DtdMem in
theorem parseLoop_any {ask : Bool} {fuel : Nat} : ∀ {k iterator : Nat} {m : MDtd} {s : List Char} {w : World}, Any ask s m [] w → Neat m →
    Follows (fun b ok w' => ok = true ∧ ∃ m', m'.val = b ∧ Neat m' ∧ Any ask [] m' [] w')
      (fun ok w' => ok = false ∧ Wrong ask (Loses fuel m.val s) w')
      (Dtd.parseLoop fuel k iterator m.val s) (parseLoop fuel k iterator w)
  | 0, _, _, _, _, _, _ => trivial
  | k + 1, iterator, m, s, w, h, hn => by
    unfold parseLoop Dtd.parseLoop
    obtain ⟨st, est, hst⟩ := h.getS
    rw [bind_ret est, hst]
    by_cases hs : s.isEmpty = true
    · rw [if_pos hs, if_pos hs]
      have : s = [] := by simpa using hs
      exact ⟨rfl, m, rfl, hn, this ▸ h⟩
    · rw [if_neg hs, if_neg hs]
      have hne : s ≠ [] := fun h0 => hs (by simp [h0])
      rcases (dtdComments_any h).cases with ⟨s1, a, w1, hX, hY, rfl, h1⟩ | ⟨a, w1, hX, hY, rfl, h1⟩ | ⟨hX, hY⟩ | ⟨hX, hY⟩
      · rw [bind_ret hY, hX]
        simp only [if_true]
        have hd := declaration_any (fuel := fuel) h1 hn
        cases hD : Dtd.declaration fuel m.val s1 with
        | none =>
          rw [hD] at hd
          obtain ⟨w2, e2, h2⟩ := hd
          have hno : ∀ {s' : List Char}, dtdComments s' = .ok s1 → ¬ Loses fuel m.val s' := by
            intro s' hs' hl
            cases hl with
            | here _ hc hp he hl =>
              rw [hs'] at hc
              cases hc
              unfold Dtd.declaration at hD
              rw [if_pos hp] at hD
              cases hD
            | after _ hc hd hl =>
              rw [hs'] at hc
              cases hc
              rw [hD] at hd
              cases hd
          rw [bind_ret e2]
          simp only
          by_cases hi : iterator = 3
          · rw [if_pos hi, if_pos hi]
            obtain ⟨w3, e3, h3⟩ := fail_any h2 (code := -1) (by decide)
            rw [bind_ret e3]
            exact ⟨rfl, .inl ⟨h3, hno hX⟩⟩
          · rw [if_neg hi, if_neg hi]
            refine (parseLoop_any h2 hn).imp (fun _ _ _ h => h) fun a w' h => ⟨h.1, h.2.iff ?_⟩
            exact ⟨fun hl => absurd hl (hno (dtdComments_again hX)), fun hl => absurd hl (hno hX)⟩
        | some r =>
          rw [hD] at hd
          simp only at hd ⊢
          rcases hd.cases with ⟨⟨d2, s2⟩, o, w2, hX2, hY2, ok, rfl, rfl, m2, rfl, hn2, h2⟩ | ⟨_, w2, hX2, hY2, rfl, h2⟩ | ⟨hX2, hY2⟩ | ⟨hX2, hY2⟩
          · rw [bind_ret hY2, hX2]
            refine (parseLoop_any h2 hn2).imp (fun _ _ _ h => h) fun a w' h => ⟨h.1, h.2.iff ?_⟩
            subst hX2
            refine ⟨fun hl => .after hne hX hD hl, fun hl => ?_⟩
            cases hl with
            | here _ hc hp he hl =>
              rw [hX] at hc
              cases hc
              unfold Dtd.declaration at hD
              rw [if_pos hp, he] at hD
              cases hD
            | after _ hc hd hl =>
              rw [hX] at hc
              cases hc
              rw [hD] at hd
              cases hd
              exact hl
          · rw [bind_ret hY2, hX2]
            refine ⟨rfl, h2.iff ?_⟩
            subst hX2
            constructor
            · rintro ⟨hp, hl⟩
              have he := hD
              unfold Dtd.declaration at he
              rw [if_pos hp] at he
              exact .here hne hX hp (by simpa using he) hl
            · intro hl
              cases hl with
              | here _ hc hp he hl =>
                rw [hX] at hc
                cases hc
                exact ⟨hp, hl⟩
              | after _ hc hd hl =>
                rw [hX] at hc
                cases hc
                rw [hD] at hd
                cases hd
          · rw [bind_ub hY2, hX2]
            trivial
          · rw [bind_loop hY2, hX2]
            trivial
      · rw [bind_ret hY, hX]
        refine ⟨rfl, .inl ⟨h1, fun hl => ?_⟩⟩
        cases hl with
        | here _ hc _ _ _ => rw [hX] at hc; cases hc
        | after _ hc _ _ => rw [hX] at hc; cases hc
      · rw [bind_ub hY, hX]
        trivial
      · rw [bind_loop hY, hX]
        trivial

/-- Declarations that are right lose nothing. -/
theorem parseLoop_ok {fuel : Nat} : ∀ {k iterator : Nat} {d x : Dtd} {s : List Char}, Dtd.parseLoop fuel k iterator d s = .ok x → ¬ Spec.DtdMem.Loses fuel d s
  | 0, _, _, _, _, h => nomatch h
  | k + 1, iterator, d, x, s, h => by
    unfold Dtd.parseLoop at h
    intro hl
    have hne : s ≠ [] := by cases hl <;> assumption
    rw [if_neg (by simpa using hne)] at h
    cases hl with
    | @here _ _ s1 _ hc hp he _ =>
      have hD : Dtd.declaration fuel d s1 = some .error := by
        unfold Dtd.declaration
        rw [if_pos hp, he]
      rw [hc] at h
      simp only [hD] at h
      cases h
    | after _ hc hd hl =>
      rw [hc] at h
      simp only [hd] at h
      exact parseLoop_ok h hl

/-! ### The whole -/

/-- The stream is released after the DTD was unlinked from it. -/
theorem streamFree_unlinked {id : Nat} {near following : Option Nat} (hs : w.stream = some ⟨id, s, last, near, following, false⟩)
    (hp : w.heap.Perm (id :: (last.toList ++ (near.toList ++ (following.toList ++ tmp))))) :
    ∃ h, streamFree w = .ret () { w with heap := h, stream := none } ∧ h.Perm tmp := by
  unfold streamFree
  rw [bind_ret (getS_eq hs)]
  simp only [Bool.false_eq_true, if_false]
  obtain ⟨h2, e2, p2⟩ := ((frees_freeOpt last).seq ((frees_freeOpt near).seq ((frees_freeOpt following).seq (frees_free id)))) w tmp
    (hp.trans (by blocks))
  refine ⟨h2, ?_, p2⟩
  have e3 : (do
      pure ()
      freeOpt last
      freeOpt near
      freeOpt following
      free id
      dropStream : M Unit) = ((do
      freeOpt last
      freeOpt near
      freeOpt following
      free id : M Unit) >>= fun _ => dropStream) := by
    simp only [bind_assoc]
  rw [e3, bind_ret e2]
  rfl

/-- What a parse leaves when the text is a DTD. -/
def Done (ask : Bool) (x : Dtd) (ok : Bool) (w : World) : Prop :=
  ok = true ∧ w.stream = none ∧ w.errors = (if ask then some [] else none) ∧
    ∃ m : MDtd, w.dtd = some m ∧ m.val = x ∧ m.Made ∧ w.heap.Perm m.blocks ∧ w.heap.Nodup

theorem conclude_none {d : Dtd} {fuel : Nat} (h : d.elements = []) (hr : d.root = none) :
    Dtd.conclude fuel d = if (!d.haveId && d.haveIdRef) = true then .error else .ok d := by
  obtain ⟨els, atts, root, a, b, ents⟩ := d
  simp only at h hr
  subst h hr
  rfl

theorem conclude_some {d : Dtd} {fuel : Nat} {e : Element} {es : List Element} (h : d.elements = e :: es) :
    Dtd.conclude fuel d = match Dtd.newRoot d.elements fuel e with
      | .ok r => if (!d.haveId && d.haveIdRef) = true then .error else .ok { d with root := some r }
      | .error => .error
      | .ub => .ub
      | .loop => .loop := by
  unfold Dtd.conclude
  simp only [h]
  cases Dtd.newRoot (e :: es) fuel e <;> rfl

theorem conclude_any {fuel : Nat} (h : Any ask s m [] w) (hn : Neat m) :
    Follows (Done ask) (fun ok w' => ok = false ∧ Dead ask [] w') (Dtd.conclude fuel m.val) (conclude fuel w) := by
  -- once the root was chosen
  have hend : ∀ {m' : MDtd} {w' : World}, Any ask s m' [] w' →
      Follows (Done ask) (fun ok w' => ok = false ∧ Dead ask [] w') (if (!m'.val.haveId && m'.val.haveIdRef) = true then .error else .ok m'.val)
        ((do
          let d ← getD
          use d.id
          if !d.haveId && d.haveIdRef then do
            fail (-1)
            pure false
          else do
            let s ← getS
            setS { s with linked := false }
            streamFree
            pure true : M Bool) w') := by
    intro m' w' h'
    rw [bind_ret h'.getD, bind_use (h'.mem_dtd (by simp [MDtd.blocks]))]
    have hv : (!m'.val.haveId && m'.val.haveIdRef) = (!m'.haveId && m'.haveIdRef) := rfl
    rw [hv]
    by_cases hc : (!m'.haveId && m'.haveIdRef) = true
    · rw [if_pos hc, if_pos hc]
      obtain ⟨w1, e1, h1⟩ := fail_any h' (code := -1) (by decide)
      rw [bind_ret e1]
      exact ⟨rfl, h1⟩
    · rw [if_neg hc, if_neg hc]
      obtain ⟨last, h'⟩ := h'
      obtain ⟨id, es, hp⟩ := h'.stream
      rw [bind_ret (getS_eq es), bind_setS]
      obtain ⟨hh, e2, p2⟩ := streamFree_unlinked (w := { w' with stream := some ⟨id, s, last, none, none, false⟩ }) (tmp := m'.blocks) rfl
        (hp.trans (by simp))
      rw [bind_ret e2]
      exact ⟨rfl, rfl, h'.errors, m', h'.dtd, rfl, h'.made, p2, p2.nodup_iff.2 (by
        have := hp.nodup_iff.1 h'.nodup
        rw [List.append_nil] at this
        exact (List.nodup_append.1 (List.nodup_cons.1 this).2).2.1)⟩
  unfold conclude chooseRoot
  rw [bind_assoc, bind_ret h.getD]
  have hroot : m.val.root = none := by simp [MDtd.val, hn.root]
  cases hl : m.elements with
  | none =>
    rw [conclude_none (by simp [MDtd.val, h.made.els hl]) hroot]
    exact hend h
  | some l =>
    simp only
    rw [bind_assoc, bind_use (h.mem_dtd (by simp [MDtd.blocks, hl]))]
    cases he : m.els with
    | nil =>
      rw [conclude_none (by simp [MDtd.val, he]) hroot]
      exact hend h
    | cons e es =>
      have hels : m.val.elements = e.val :: es.map MElement.val := by simp [MDtd.val, he]
      have hall : m.val.elements = m.els.map MElement.val := rfl
      have hr := newRoot_any (m := m) (es := m.els) (fun _ hx => hx) (fuel := fuel) (root := e) h (by simp [he])
      rw [← hall] at hr
      rw [conclude_some hels]
      simp only [bind_assoc]
      rw [← he, ← hl]
      rcases hr.cases with ⟨b, a, w1, hX, hY, rfl, h1⟩ | ⟨_, _, _, _, hf⟩ | ⟨hX, hY⟩ | ⟨hX, hY⟩
      · have hmade := h1.made
        obtain ⟨w2, e2, h2⟩ := h1.setD (d' := { m with root := some a }) (tmp' := []) (List.Perm.refl _) ⟨hmade.els, hmade.atts, hmade.ents, hmade.each⟩
        rw [bind_ret hY, bind_ret e2, hX]
        exact hend h2
      · exact hf.elim
      · rw [bind_ub hY, hX]
        trivial
      · rw [bind_loop hY, hX]
        trivial

theorem begin_any (ask : Bool) (text : List Char) :
    ∃ m w, begin_ text (World.start ask) = .ret () w ∧ m.val = Dtd.new ∧ Neat m ∧ Any ask text m [] w := by
  refine ⟨⟨1, none, [], none, [], none, [], none, false, false⟩,
    ⟨[1, 0], 2, some ⟨0, text, none, none, none, true⟩, some ⟨1, none, [], none, [], none, [], none, false, false⟩, if ask then some [] else none⟩,
    rfl, rfl, ⟨fun e he => (nomatch he), rfl⟩, none, ⟨0, rfl, ?_⟩, rfl, ⟨fun _ => rfl, fun _ => rfl, fun _ => rfl, fun e he => (nomatch he)⟩, ?_, ?_, ?_⟩
  · simp only [MDtd.blocks, Option.toList, List.map_nil, List.flatten_nil]
    blocks
  · exact (by decide : [1, 0].Nodup)
  · intro i hi
    simp only [List.mem_cons, List.not_mem_nil, or_false] at hi
    show i < 2
    omega
  · rfl

/-- `axl_dtd_parse` does what the parser over the text does. -/
theorem parse_follows (ask : Bool) (fuel : Nat) (text : List Char) :
    Follows (Done ask) (fun ok w' => ok = false ∧ Wrong ask (Spec.DtdMem.Loses fuel Dtd.new text) w') (Dtd.parse fuel text) (parse fuel text (World.start ask)) := by
  unfold parse Dtd.parse declarations
  obtain ⟨m, w, e, hv, hn, h⟩ := begin_any ask text
  rw [bind_ret e]
  have hp := parseLoop_any (fuel := fuel) (k := fuel + 5) (iterator := 0) h hn
  rw [hv] at hp
  rcases hp.cases with ⟨b, a, w1, hX, hY, rfl, m1, rfl, hn1, h1⟩ | ⟨_, w1, hX, hY, rfl, h1⟩ | ⟨hX, hY⟩ | ⟨hX, hY⟩
  · rw [bind_ret hY, hX]
    exact (conclude_any h1 hn1).imp (fun _ _ _ h => h) fun a w' h => ⟨h.1, .inl ⟨h.2, parseLoop_ok hX⟩⟩
  · rw [bind_ret hY, hX]
    exact ⟨rfl, h1⟩
  · rw [bind_ub hY, hX]
    trivial
  · rw [bind_loop hY, hX]
    trivial

end

end DtdMem
end Axl
