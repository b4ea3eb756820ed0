/-
Proofs for C74: the answer of axl_dtd_validate for texts.
-/
import Verif.Proofs.Source
import Verif.Proofs.DtdSource
import Verif.Proofs.DtdWell
import Verif.Props.Dtd
import Verif.Spec.Valid

namespace Axl.Valid
open Spec.Valid Spec.Source Spec.Xml
open Dtd.Source (Subset Model Cp Cps)
open Dtd (AttDecl Content nodes nodesOf Conforms HasAttr Items.kids)

/-! ### The nodes and the elements -/

/-- What a node says of its element. -/
structure Alike (e : Element) (n : Node) : Prop where
  name  : n.name = name e
  attrs : Holds n.attrs (attrs e)
  kids  : (Dtd.Items.kids n.items).map Node.name = (children e).map Spec.Valid.name
  text  : n.items.isEmpty = true ↔ ¬ HasText e

/-- The two lists go together. -/
inductive Both : List Element → List Node → Prop
  | nil : Both [] []
  | cons {e : Element} {n : Node} {es : List Element} {ns : List Node} : Alike e n → Both es ns → Both (e :: es) (n :: ns)

theorem Both.append {es : List Element} {ns : List Node} (h : Both es ns) {es' : List Element} {ns' : List Node} (h' : Both es' ns') :
    Both (es ++ es') (ns ++ ns') := by
  induction h with
  | nil => exact h'
  | cons h _ ih => exact .cons h ih

theorem Both.length {es : List Element} {ns : List Node} (h : Both es ns) : ns.length = es.length := by
  induction h with
  | nil => rfl
  | cons _ _ ih => simp [ih]

theorem Both.left {es : List Element} {ns : List Node} (h : Both es ns) : ∀ (i : Nat) (e : Element), es[i]? = some e → ∃ n, ns[i]? = some n ∧ Alike e n := by
  induction h with
  | nil => intro i e h; simp at h
  | cons h _ ih =>
    intro i e he
    cases i with
    | zero => simp at he; subst he; exact ⟨_, rfl, h⟩
    | succ i => exact ih i e (by simpa using he)

theorem Both.right {es : List Element} {ns : List Node} (h : Both es ns) : ∀ (i : Nat) (n : Node), ns[i]? = some n → ∃ e, es[i]? = some e ∧ Alike e n := by
  induction h with
  | nil => intro i e h; simp at h
  | cons h _ ih =>
    intro i e he
    cases i with
    | zero => simp at he; subst he; exact ⟨_, rfl, h⟩
    | succ i => exact ih i e (by simpa using he)

theorem Both.mem_left {es : List Element} {ns : List Node} (h : Both es ns) {e : Element} (he : e ∈ es) : ∃ n ∈ ns, Alike e n := by
  obtain ⟨i, hi⟩ := List.getElem?_of_mem he
  obtain ⟨n, h1, h2⟩ := h.left i e hi
  exact ⟨n, List.mem_of_getElem? h1, h2⟩

theorem Both.mem_right {es : List Element} {ns : List Node} (h : Both es ns) {n : Node} (hn : n ∈ ns) : ∃ e ∈ es, Alike e n := by
  obtain ⟨i, hi⟩ := List.getElem?_of_mem hn
  obtain ⟨n, h1, h2⟩ := h.right i n hi
  exact ⟨n, List.mem_of_getElem? h1, h2⟩

theorem shown_false {after : Bool} {t : List Char} : shown false after t = none ↔ Blank t := by
  unfold shown
  cases after <;> by_cases h : Blank t <;> simp [h]

theorem keeps_plain {as : List Attribute} (h : ¬ asksPreserve as) : keeps false as = false := by
  unfold keeps
  split
  · rename_i a ha
    have h1 := List.mem_of_find?_eq_some ha
    have h2 := List.find?_some ha
    simp only [decide_eq_true_eq] at h2
    exact decide_eq_false fun h3 => h ⟨a, h1, h2, h3⟩
  · rfl

mutual
theorem means_name {keep : Bool} : ∀ (e : Element) (n : Node), Means keep e n → n.name = name e
  | .empty _ _ _, _, h => by unfold Means at h; exact h.1
  | .pair _ _ _ _ _, _, h => by unfold Means at h; exact h.1
end

/-- The children and the texts of a content. -/
theorem parts_level : ∀ (p : Parts) (after : Bool) (i : Items), MeansParts false after p i →
    (Dtd.Items.kids i).map Node.name = (elements p).map Spec.Valid.name ∧ (i.isEmpty = true ↔ ¬ saysText p)
  | .nil, _, i, h => by
    unfold MeansParts at h
    subst h
    exact ⟨rfl, by simp [Items.isEmpty, saysText]⟩
  | .text t next, after, i, h => by
    unfold MeansParts at h
    unfold elements saysText
    cases hs : shown false after t with
    | none =>
      rw [hs] at h
      have := parts_level next false i h
      rw [shown_false] at hs
      simpa [hs] using this
    | some u =>
      rw [hs] at h
      obtain ⟨j, rfl, hj⟩ := h
      have := parts_level next false j hj
      have hb : ¬ Blank t := fun hb => by rw [shown_false.2 hb] at hs; cases hs
      refine ⟨by simpa [Dtd.Items.kids] using this.1, by simp [Items.isEmpty, hb]⟩
  | .comment t next, _, i, h => by
    unfold MeansParts at h
    obtain ⟨j, rfl, hj⟩ := h
    simpa [Dtd.Items.kids, Items.isEmpty, elements, saysText] using parts_level next true j hj
  | .pi t p next, _, i, h => by
    unfold MeansParts at h
    obtain ⟨j, rfl, hj⟩ := h
    simpa [Dtd.Items.kids, Items.isEmpty, elements, saysText] using parts_level next true j hj
  | .cdata t next, _, i, h => by
    unfold MeansParts at h
    obtain ⟨j, rfl, hj⟩ := h
    refine ⟨by simpa [Dtd.Items.kids, elements] using (parts_level next false j hj).1, by simp [Items.isEmpty, saysText]⟩
  | .element e next, _, i, h => by
    unfold MeansParts at h
    obtain ⟨n, j, rfl, hn, hj⟩ := h
    have := parts_level next false j hj
    refine ⟨by simp [Dtd.Items.kids, elements, this.1, means_name e n hn], by simpa [Items.isEmpty, saysText] using this.2⟩

mutual
theorem both_element : ∀ (e : Element) (n : Node), NoPreserve e → Means false e n → Both (all e) (nodes n)
  | .empty name as g, n, _, h => by
    unfold Means at h
    obtain ⟨nm, a, i⟩ := n
    obtain ⟨h1, h2, h3⟩ := h
    simp only [Node.items] at h3
    subst h3
    unfold all nodes nodesOf
    exact .cons ⟨h1, h2, rfl, by simp [Node.items, Items.isEmpty, HasText, Spec.Valid.content, saysText]⟩ .nil
  | .pair name as g c ge, n, hp, h => by
    unfold Means at h
    unfold NoPreserve at hp
    rw [keeps_plain hp.1] at h
    obtain ⟨nm, a, i⟩ := n
    obtain ⟨h1, h2, h3⟩ := h
    unfold all nodes
    have := parts_level c false i h3
    exact .cons ⟨h1, h2, this.1, this.2⟩ (both_parts c false i hp.2 h3)
theorem both_parts : ∀ (p : Parts) (after : Bool) (i : Items), NoPreserveParts p → MeansParts false after p i → Both (allOf p) (nodesOf i)
  | .nil, _, i, _, h => by
    unfold MeansParts at h
    subst h
    exact .nil
  | .text t next, after, i, hp, h => by
    unfold MeansParts at h
    unfold allOf
    cases hs : shown false after t with
    | none =>
      rw [hs] at h
      exact both_parts next false i hp h
    | some u =>
      rw [hs] at h
      obtain ⟨j, rfl, hj⟩ := h
      exact both_parts next false j hp hj
  | .comment t next, _, i, hp, h => by
    unfold MeansParts at h
    obtain ⟨j, rfl, hj⟩ := h
    exact both_parts next true j hp hj
  | .pi t p next, _, i, hp, h => by
    unfold MeansParts at h
    obtain ⟨j, rfl, hj⟩ := h
    exact both_parts next true j hp hj
  | .cdata t next, _, i, hp, h => by
    unfold MeansParts at h
    obtain ⟨j, rfl, hj⟩ := h
    exact both_parts next false j hp hj
  | .element e next, _, i, hp, h => by
    unfold MeansParts at h
    obtain ⟨n, j, rfl, hn, hj⟩ := h
    unfold NoPreserveParts at hp
    unfold allOf nodesOf
    exact (both_element e n hp.1 hn).append (both_parts next false j hp.2 hj)
end

theorem has_iff {e : Element} {n : Node} (h : Alike e n) (k v : List Char) : HasAttr n k v ↔ Has e k v := by
  unfold HasAttr Has
  rw [← h.attrs.2.mem]
  simp

/-! ### The contents -/

theorem star_names (ns : List (List Char)) : ∀ (w : Dtd.Word), Dtd.Star (fun w => ∃ n ∈ ns, w = [n]) w ↔ ∀ k ∈ w, k ∈ ns := by
  intro w
  constructor
  · intro h
    induction h with
    | nil => simp
    | cons h _ ih =>
      obtain ⟨n, hn, rfl⟩ := h
      simpa [hn] using ih
  · intro h
    induction w with
    | nil => exact .nil
    | cons k w ih =>
      have := Dtd.Star.cons (L := fun w => ∃ n ∈ ns, w = [n]) (u := [k]) ⟨k, h k (by simp), rfl⟩ (ih fun x hx => h x (by simp [hx]))
      simpa using this

theorem alt_names : ∀ (ns : Cps), ns.names → ∀ w, Dtd.AltLang ns.parts w ↔ ∃ n ∈ names ns, w = [n]
  | .last p, h, w => by
    obtain ⟨g, n, ge, rfl⟩ := h
    simp [Cps.parts, Cp.part, Dtd.AltLang, Dtd.Part.Lang, Dtd.Rep, names]
  | .more p next, h, w => by
    obtain ⟨⟨g, n, ge, rfl⟩, h⟩ := h
    simp only [Cps.parts, Cp.part, Dtd.AltLang, Dtd.Part.Lang, Dtd.Rep, names, alt_names next h w, List.mem_cons]
    constructor
    · rintro (h | ⟨m, hm, h⟩)
      · exact ⟨n, .inl rfl, h⟩
      · exact ⟨m, .inr hm, h⟩
    · rintro ⟨m, rfl | hm, h⟩
      · exact .inl h
      · exact .inr ⟨m, hm, h⟩

theorem star_congr {L M : Dtd.Word → Prop} (h : ∀ w, L w ↔ M w) (w : Dtd.Word) : Dtd.Star L w ↔ Dtd.Star M w := by
  have : L = M := funext fun w => propext (h w)
  rw [this]

/-- Mixed content: any of the names, any number of times. -/
theorem mixed_words {ns : Cps} (h : ns.names) (w : Dtd.Word) :
    Content.Lang ⟨.choice, .many, .node .one c!"#PCDATA" :: ns.parts⟩ w ↔ ∀ k ∈ w, k ∈ c!"#PCDATA" :: names ns := by
  rw [← star_names]
  refine star_congr (fun w => ?_) w
  simp only [Dtd.AltLang, Dtd.Part.Lang, Dtd.Rep, alt_names ns h w, List.mem_cons, if_neg (show ¬ (Dtd.Kind.choice = Dtd.Kind.seq) by decide)]
  constructor
  · rintro (h | ⟨m, hm, h⟩)
    · exact ⟨_, .inl rfl, h⟩
    · exact ⟨m, .inr hm, h⟩
  · rintro ⟨m, rfl | hm, h⟩
    · exact .inl h
    · exact .inr ⟨m, hm, h⟩

theorem pcdata_name : ¬ Dtd.Source.DtdName c!"#PCDATA" := fun h => h.2 '#' (by decide) (by decide)

/-- The content stored for an element allows what the one written does. -/
theorem allows_iff {m : Model} (hv : m.Valid) (hk : m.Known) {e : Element} {n : Node} (h : Alike e n)
    (hn : ∀ k ∈ children e, Dtd.Source.DtdName (name k)) (nm : List Char) :
    Dtd.Element.Allows ⟨nm, m.stored⟩ n ↔ Allowed m e := by
  have hkids : Dtd.Items.kids n.items = [] ↔ children e = [] := by
    rw [← List.map_eq_nil_iff (f := Node.name), h.kids, List.map_eq_nil_iff]
  have hs := Dtd.model_same hv hk
  cases m with
  | empty => simp only [Dtd.Element.Allows, Model.stored, Allowed, hkids, h.text]
  | any => simp only [Dtd.Element.Allows, Model.stored, Allowed]
  | text g ge many => simp only [Dtd.Element.Allows, Model.stored, Allowed, hkids]
  | mixed g ge ns =>
    have := hs ((children e).map name)
    simp only [Dtd.Element.Allows, Model.stored, Allowed, h.kids] at this ⊢
    rw [this, mixed_words hv.2.2.2]
    simp only [List.mem_map, forall_exists_index, and_imp, forall_apply_eq_imp_iff₂, List.mem_cons]
    refine ⟨fun h k hk => (h k hk).resolve_left fun he => pcdata_name (he ▸ hn k hk), fun h k hk => .inr (h k hk)⟩
  | children choice items t =>
    have := hs ((children e).map name)
    simp only [Dtd.Element.Allows, Model.stored, Allowed, h.kids] at this ⊢
    exact this

/-! ### Conformance -/

theorem declares_mem {x : Subset} {n : List Char} {m : Model} (h : Declares x n m) : (⟨n, m.stored⟩ : Dtd.Element) ∈ x.elements := by
  obtain ⟨b, g, gm, ge, h⟩ := h
  exact List.mem_filterMap.2 ⟨_, h, rfl⟩

theorem mem_declares {x : Subset} {el : Dtd.Element} (h : el ∈ x.elements) : ∃ m, Declares x el.name m ∧ el.type = m.stored := by
  obtain ⟨⟨b, dcl⟩, h1, h2⟩ := List.mem_filterMap.1 h
  cases dcl with
  | element g n gm m ge =>
    simp only [Option.some.injEq] at h2
    subst h2
    exact ⟨m, ⟨b, g, gm, ge, h1⟩, rfl⟩
  | _ => simp at h2

theorem declares_valid {x : Subset} (hx : x.Valid) {n : List Char} {m : Model} (h : Declares x n m) : Dtd.Source.DtdName n ∧ m.Valid := by
  obtain ⟨b, g, gm, ge, h⟩ := h
  have := hx.decls _ h
  exact ⟨this.2.1, this.2.2.2.1⟩

/-- What is found for a name. -/
theorem element_iff {x : Subset} (hx : x.Valid) {d : Dtd.Dtd} (hm : x.Means d) (n : List Char) (el : Dtd.Element) :
    d.element n = some el ↔ ∃ m, Declares x n m ∧ el = ⟨n, m.stored⟩ := by
  constructor
  · intro h
    have h1 := List.mem_of_find?_eq_some h
    have h2 := List.find?_some h
    rw [beq_iff_eq] at h2
    rw [hm.elements] at h1
    obtain ⟨m, h3, h4⟩ := mem_declares h1
    subst h2
    exact ⟨m, h3, by cases el; simp_all⟩
  · rintro ⟨m, h1, rfl⟩
    exact Dtd.element_of_nodup (hm.elements ▸ hx.names) (e := ⟨n, m.stored⟩) (hm.elements ▸ declares_mem h1)

theorem find_once {ds : List AttDecl} (hn : (ds.map (·.name)).Nodup) {n : List Char} {d : AttDecl} :
    ds.find? (fun x => x.name == n) = some d ↔ d ∈ ds ∧ d.name = n := by
  constructor
  · intro h
    exact ⟨List.mem_of_find?_eq_some h, by simpa using List.find?_some h⟩
  · rintro ⟨h, rfl⟩
    induction ds with
    | nil => cases h
    | cons q ds ih =>
      rw [List.map_cons, List.nodup_cons] at hn
      rw [List.find?_cons]
      rcases List.mem_cons.1 h with rfl | h
      · simp
      · have : (q.name == d.name) = false := by
          rw [beq_eq_false_iff_ne]
          intro he
          exact hn.1 (he ▸ List.mem_map_of_mem (f := (·.name)) h)
        rw [this]
        exact ih hn.2 h

theorem attrs_iff {al : Dtd.AttList} (hn : (al.decls.map (·.name)).Nodup) {e : Element} {n : Node} (h : Alike e n) :
    al.Allows n ↔ AllowedAttrs al.decls e := by
  constructor
  · rintro ⟨h1, h2, h3⟩
    refine ⟨fun k v hv => ?_, fun d hd hr => ?_, fun d hd hr => ?_⟩
    · obtain ⟨d, hd, hs⟩ := h1 k v ((has_iff h k v).2 hv)
      obtain ⟨hm, hk⟩ := (find_once hn).1 hd
      exact ⟨d, hm, hk, hs⟩
    · obtain ⟨v, hv⟩ := h2 d hd hr
      exact ⟨v, (has_iff h _ v).1 hv⟩
    · obtain ⟨v, hv, hw⟩ := h3 d hd hr
      exact ⟨v, hv, (has_iff h _ v).1 hw⟩
  · rintro ⟨h1, h2, h3⟩
    refine ⟨fun k v hv => ?_, fun d hd hr => ?_, fun d hd hr => ?_⟩
    · obtain ⟨d, hd, hk, hs⟩ := h1 k v ((has_iff h k v).1 hv)
      exact ⟨d, (find_once hn).2 ⟨hd, hk⟩, hs⟩
    · obtain ⟨v, hv⟩ := h2 d hd hr
      exact ⟨v, (has_iff h _ v).2 hv⟩
    · obtain ⟨v, hv, hw⟩ := h3 d hd hr
      exact ⟨v, hv, (has_iff h _ v).2 hw⟩

/-- The attribute that identifies. -/
theorem id_name {x : Subset} (hx : x.Valid) {d : Dtd.Dtd} (hm : x.Means d) {n : List Char} {al : Dtd.AttList} (ha : d.attr n = some al) {q : AttDecl}
    (hq : al.decls.find? (fun x => decide (x.type = .id)) = some q) :
    q ∈ x.attributes n ∧ q.type = .id ∧ ∀ q' ∈ x.attributes n, q'.type = .id → q'.name = q.name := by
  rcases hm.attributes n with ⟨h, _⟩ | ⟨al', h, -, h2, -⟩
  · rw [h] at ha; cases ha
  · rw [h] at ha
    cases ha
    have h3 := List.mem_of_find?_eq_some hq
    have h4 := List.find?_some hq
    simp only [decide_eq_true_eq] at h4
    rw [h2] at h3
    exact ⟨h3, h4, fun q' hq' ht => hx.oneId n q' hq' q h3 ht h4⟩

theorem attr_of {x : Subset} {d : Dtd.Dtd} (hm : x.Means d) {n : List Char} {q : AttDecl} (hq : q ∈ x.attributes n) :
    ∃ al, d.attr n = some al ∧ al.decls = x.attributes n := by
  rcases hm.attributes n with ⟨_, h⟩ | ⟨al, h, -, h2, -⟩
  · rw [h] at hq; cases hq
  · exact ⟨al, h, h2⟩

theorem of_attr {x : Subset} {d : Dtd.Dtd} (hm : x.Means d) {n : List Char} {al : Dtd.AttList} (ha : d.attr n = some al) :
    al.decls = x.attributes n ∧ x.attributes n ≠ [] := by
  rcases hm.attributes n with ⟨h, _⟩ | ⟨al', h, -, h2, h3⟩
  · rw [h] at ha; cases ha
  · rw [h] at ha
    cases ha
    exact ⟨h2, h3⟩

theorem identifies_iff {x : Subset} (hx : x.Valid) {d : Dtd.Dtd} (hm : x.Means d) {e : Element} {n : Node} (h : Alike e n) (v : List Char) :
    Dtd.Identifies d n v ↔ Identifier x e v := by
  unfold Dtd.Identifies Identifier
  rw [h.name]
  constructor
  · rintro ⟨al, q, ha, hq, hv⟩
    obtain ⟨h1, h2, _⟩ := id_name hx hm ha hq
    exact ⟨q, h1, h2, (has_iff h _ v).1 hv⟩
  · rintro ⟨q, h1, h2, hv⟩
    obtain ⟨al, ha, hd⟩ := attr_of hm h1
    have : (al.decls.find? (fun x => decide (x.type = .id))).isSome = true := by
      rw [List.find?_isSome]
      exact ⟨q, hd ▸ h1, by simpa using h2⟩
    obtain ⟨q', hq'⟩ := Option.isSome_iff_exists.1 this
    obtain ⟨_, _, h5⟩ := id_name hx hm ha hq'
    exact ⟨al, q', ha, hq', (has_iff h _ v).2 (h5 q h1 h2 ▸ hv)⟩

theorem refers_iff {x : Subset} {d : Dtd.Dtd} (hm : x.Means d) {e : Element} {n : Node} (h : Alike e n) (v : List Char) :
    Dtd.Refers d n v ↔ Reference x e v := by
  unfold Dtd.Refers Reference
  rw [h.name]
  constructor
  · rintro ⟨al, q, ha, hq, ht, hv⟩
    exact ⟨q, (of_attr hm ha).1 ▸ hq, ht, (has_iff h _ v).1 hv⟩
  · rintro ⟨q, h1, h2, hv⟩
    obtain ⟨al, ha, hd⟩ := attr_of hm h1
    exact ⟨al, q, ha, hd ▸ h1, h2, (has_iff h _ v).2 hv⟩

mutual
theorem child_all : ∀ (e : Element), ∀ k ∈ all e, ∀ c ∈ children k, c ∈ all e
  | .empty _ _ _, k, hk, c, hc => by
    unfold all at hk
    simp only [List.mem_singleton] at hk
    subst hk
    simp [children, content, elements] at hc
  | .pair n as g p ge, k, hk, c, hc => by
    unfold all at hk ⊢
    rcases List.mem_cons.1 hk with rfl | hk
    · exact List.mem_cons_of_mem _ (elements_all p c hc)
    · exact List.mem_cons_of_mem _ (child_allOf p k hk c hc)
theorem child_allOf : ∀ (p : Parts), ∀ k ∈ allOf p, ∀ c ∈ children k, c ∈ allOf p
  | .nil, k, hk, _, _ => by simp [allOf] at hk
  | .text _ next, k, hk, c, hc => child_allOf next k hk c hc
  | .comment _ next, k, hk, c, hc => child_allOf next k hk c hc
  | .pi _ _ next, k, hk, c, hc => child_allOf next k hk c hc
  | .cdata _ next, k, hk, c, hc => child_allOf next k hk c hc
  | .element e next, k, hk, c, hc => by
    unfold allOf at hk ⊢
    rcases List.mem_append.1 hk with hk | hk
    · exact List.mem_append_left _ (child_all e k hk c hc)
    · exact List.mem_append_right _ (child_allOf next k hk c hc)
theorem elements_all : ∀ (p : Parts), ∀ c ∈ elements p, c ∈ allOf p
  | .nil, c, hc => by simp [elements] at hc
  | .text _ next, c, hc => elements_all next c hc
  | .comment _ next, c, hc => elements_all next c hc
  | .pi _ _ next, c, hc => elements_all next c hc
  | .cdata _ next, c, hc => elements_all next c hc
  | .element e next, c, hc => by
    unfold elements at hc
    unfold allOf
    rcases List.mem_cons.1 hc with rfl | hc
    · exact List.mem_append_left _ (self_all c)
    · exact List.mem_append_right _ (elements_all next c hc)
theorem self_all : ∀ (e : Element), e ∈ all e
  | .empty _ _ _ => by simp [all]
  | .pair _ _ _ _ _ => by simp [all]
end

theorem conforms_iff {x : Subset} (hx : Class x) {d : Dtd.Dtd} (hm : x.Means d) {e : Element} {root : Node} (hb : Both (all e) (nodes root)) :
    Conforms d root ↔ Checked x e := by
  constructor
  · rintro ⟨h1, h2, h3, h4⟩
    have named : ∀ k ∈ all e, Dtd.Source.DtdName (name k) := fun k hk => by
      obtain ⟨n, hn, ha⟩ := hb.mem_left hk
      obtain ⟨el, he, -⟩ := h1 n hn
      obtain ⟨m, hd, -⟩ := (element_iff hx.valid hm _ _).1 he
      rw [ha.name] at hd
      exact (declares_valid hx.valid hd).1
    refine ⟨fun k hk => ?_, fun k hk hne => ?_, fun i j k l v hi hj hk hl => ?_, fun k hk v hr => ?_⟩
    · obtain ⟨n, hn, ha⟩ := hb.mem_left hk
      obtain ⟨el, he, hal⟩ := h1 n hn
      obtain ⟨m, hd, rfl⟩ := (element_iff hx.valid hm _ _).1 he
      rw [ha.name] at hd
      exact ⟨m, hd, (allows_iff (declares_valid hx.valid hd).2 (hx.known _ _ hd) ha (fun c hc => named c (child_all e k hk c hc)) _).1 hal⟩
    · obtain ⟨n, hn, ha⟩ := hb.mem_left hk
      obtain ⟨q, hq⟩ := List.exists_mem_of_ne_nil _ hne
      obtain ⟨al, hal, hd⟩ := attr_of hm hq
      rw [← hd]
      exact (attrs_iff (hd ▸ hx.once _) ha).1 (h2 n hn al (ha.name ▸ hal))
    · obtain ⟨n, hn, ha⟩ := hb.left i k hi
      obtain ⟨n', hn', ha'⟩ := hb.left j l hj
      exact h3 i j n n' v hn hn' ((identifies_iff hx.valid hm ha v).2 hk) ((identifies_iff hx.valid hm ha' v).2 hl)
    · obtain ⟨n, hn, ha⟩ := hb.mem_left hk
      obtain ⟨n', hn', hi⟩ := h4 n hn v ((refers_iff hm ha v).2 hr)
      obtain ⟨l, hl, ha'⟩ := hb.mem_right hn'
      exact ⟨l, hl, (identifies_iff hx.valid hm ha' v).1 hi⟩
  · rintro ⟨h1, h2, h3, h4⟩
    have named : ∀ k ∈ all e, Dtd.Source.DtdName (name k) := fun k hk => by
      obtain ⟨m, hd, -⟩ := h1 k hk
      exact (declares_valid hx.valid hd).1
    refine ⟨fun n hn => ?_, fun n hn al hal => ?_, fun i j n n' v hi hj hk hl => ?_, fun n hn v hr => ?_⟩
    · obtain ⟨k, hk, ha⟩ := hb.mem_right hn
      obtain ⟨m, hd, hal⟩ := h1 k hk
      refine ⟨⟨name k, m.stored⟩, (element_iff hx.valid hm _ _).2 ⟨m, ha.name ▸ hd, by rw [ha.name]⟩, ?_⟩
      exact (allows_iff (declares_valid hx.valid hd).2 (hx.known _ _ hd) ha (fun c hc => named c (child_all e k hk c hc)) _).2 hal
    · obtain ⟨k, hk, ha⟩ := hb.mem_right hn
      rw [ha.name] at hal
      obtain ⟨hd, hne⟩ := of_attr hm hal
      exact (attrs_iff (hd ▸ hx.once _) ha).2 (hd ▸ h2 k hk hne)
    · obtain ⟨k, hk', ha⟩ := hb.right i n hi
      obtain ⟨l, hl', ha'⟩ := hb.right j n' hj
      exact h3 i j k l v hk' hl' ((identifies_iff hx.valid hm ha v).1 hk) ((identifies_iff hx.valid hm ha' v).1 hl)
    · obtain ⟨k, hk, ha⟩ := hb.mem_right hn
      obtain ⟨l, hl, hi⟩ := h4 k hk v ((refers_iff hm ha v).1 hr)
      obtain ⟨n', hn', ha'⟩ := hb.mem_left hl
      exact ⟨n', hn', (identifies_iff hx.valid hm ha' v).2 hi⟩

theorem regular_of {x : Subset} (hx : x.Valid) {d : Dtd.Dtd} (hm : x.Means d) {e : Element} {root : Node} (hb : Both (all e) (nodes root))
    (hi : ∀ k ∈ all e, ∀ q ∈ x.attributes (name k), q.type = .id → ∃ v, Has k q.name v) : Dtd.Regular d root := by
  refine ⟨fun n hn => ?_, fun n hn al q ha hq => ?_⟩
  · obtain ⟨k, _, h⟩ := hb.mem_right hn
    exact h.attrs.1
  · obtain ⟨k, hk, h⟩ := hb.mem_right hn
    rw [h.name] at ha
    obtain ⟨h1, h2, _⟩ := id_name hx hm ha hq
    obtain ⟨v, hv⟩ := hi k hk q h1 h2
    exact ⟨v, (has_iff h _ v).2 hv⟩

/-- The answer for a DTD and a document that were read. -/
theorem answer {x : Subset} (hx : Class x) {e : Element} (he : ClassDoc x e) {d : Dtd.Dtd} (hd : d.Parsed) (hm : x.Means d) {root : Node}
    (hr : Means false e root) {fuel : Nat} (hf : (all e).length ≤ fuel) :
    (∃ b, Dtd.validate fuel d root = .ok b) ∧ (Dtd.validate fuel d root = .ok true ↔ Checked x e) := by
  have hb := both_element e root he.plain hr
  rw [← conforms_iff hx hm hb]
  refine Dtd.C35_conforms_partial hd ?_ ?_ ?_ (regular_of hx.valid hm hb he.ids) (by rw [hb.length]; exact hf)
  · intro el hel
    obtain ⟨m, h1, h2⟩ := mem_declares (hm.elements ▸ hel)
    rw [h2]
    cases m with
    | any => exact absurd h1 (hx.noAny _)
    | _ => rfl
  · intro el hel l hl
    obtain ⟨m, h1, h2⟩ := mem_declares (hm.elements ▸ hel)
    exact hx.models _ m l h1 (h2 ▸ hl)
  · intro el l hel hl
    obtain ⟨m, h1, rfl⟩ := (element_iff hx.valid hm _ _).1 hel
    rw [means_name e root hr] at h1
    exact he.root m l h1 hl

theorem checked_of_xml {x : Subset} {e : Element} (h : ValidXml x e) (hf : FixedWritten x e) : Checked x e := by
  refine ⟨fun k hk => ?_, fun k hk _ => ?_, h.unique, fun k hk v hr => h.resolved k hk v (.inl hr)⟩
  · obtain ⟨m, hd, ha⟩ := h.content k hk
    refine ⟨m, hd, ?_⟩
    cases m with
    | empty =>
      simp only [AllowedXml] at ha
      simp [Allowed, children, HasText, ha, elements, saysText]
    | children => exact ha.1
    | _ => exact ha
  · have := h.attrs k hk
    refine ⟨this.declared, this.required, fun q hq hx => ?_⟩
    obtain ⟨v, hv⟩ := hf k hk q hq hx
    exact ⟨v, this.fixed q hq hx v hv, hv⟩

end Axl.Valid
