import Verif.Proofs.Dtd

/-! # Validation of a document against the specification -/

namespace Axl.Dtd

/-! ### The size of the tree -/

theorem self_mem (n : Node) : n ∈ nodes n := by rw [nodes_eq]; simp

mutual
theorem nodes_trans : ∀ (r n m : Node), n ∈ nodes r → m ∈ nodes n → m ∈ nodes r
  | .mk name attrs items, n, m, hn, hm => by
    rw [nodes, List.mem_cons] at hn
    rcases hn with rfl | hn
    · exact hm
    · rw [nodes]
      exact List.mem_cons_of_mem _ (nodesOf_trans items n m hn hm)
theorem nodesOf_trans : ∀ (i : Items) (n m : Node), n ∈ nodesOf i → m ∈ nodes n → m ∈ nodesOf i
  | .nil, n, m, hn, _ => by rw [nodesOf] at hn; cases hn
  | .node k next, n, m, hn, hm => by
    rw [nodesOf, List.mem_append] at hn ⊢
    exact hn.imp (fun h => nodes_trans k n m h hm) (fun h => nodesOf_trans next n m h hm)
  | .leaf _ next, n, m, hn, hm => by
    rw [nodesOf] at hn ⊢
    exact nodesOf_trans next n m hn hm
end

mutual
theorem nodes_length : ∀ (r n : Node), n ∈ nodes r → (nodes n).length ≤ (nodes r).length
  | .mk name attrs items, n, hn => by
    rw [nodes, List.mem_cons] at hn
    rcases hn with rfl | hn
    · exact Nat.le_refl _
    · have := nodesOf_length items n hn
      rw [nodes, List.length_cons]
      omega
theorem nodesOf_length : ∀ (i : Items) (n : Node), n ∈ nodesOf i → (nodes n).length ≤ (nodesOf i).length
  | .nil, n, hn => by rw [nodesOf] at hn; cases hn
  | .node k next, n, hn => by
    rw [nodesOf, List.mem_append] at hn
    rw [nodesOf, List.length_append]
    rcases hn with hn | hn
    · have := nodes_length k n hn; omega
    · have := nodesOf_length next n hn; omega
  | .leaf _ next, n, hn => by
    rw [nodesOf] at hn ⊢
    exact nodesOf_length next n hn
end

theorem kids_lt {r n : Node} (h : n ∈ nodes r) : (Items.kids n.items).length < (nodes r).length := by
  have h1 := nodes_length r n h
  rw [nodes_eq n, List.length_cons] at h1
  have : ∀ l : List Node, l.length ≤ (l.flatMap nodes).length := by
    intro l
    induction l with
    | nil => simp
    | cons x xs ih =>
      have : 0 < (nodes x).length := List.length_pos_iff.2 (List.ne_nil_of_mem (self_mem x))
      rw [List.flatMap_cons, List.length_append, List.length_cons]
      omega
  have := this (Items.kids n.items)
  omega

/-! ### Content -/

theorem allows_of_content {fuel : Nat} {e : Element} {n : Node} {top : Bool} (hl : ∀ l, e.type = .children l → l.exact = true)
    (h : contentValidate fuel e n top = some true) : e.Allows n := by
  unfold contentValidate at h
  unfold Element.Allows
  split at h
  · rename_i ht
    rw [ht]
    injection h with h
    rw [Bool.not_eq_true'] at h
    exact (haveChilds_iff _).1 h
  · rename_i l ht
    rw [ht]
    exact children_sound (hl l ht) h
  · cases h
  · rename_i ht
    rw [ht]
    injection h with h
    rw [Bool.and_eq_true, Bool.not_eq_true'] at h
    exact ⟨(haveChilds_iff _).1 h.2, h.1⟩
  · rename_i ht; rw [ht]; trivial
  · rename_i ht; rw [ht]; trivial

theorem content_of_allows {fuel : Nat} {e : Element} {n : Node} {top : Bool} (hl : ∀ l, e.type = .children l → l.total top = true)
    (hf : (Items.kids n.items).length < fuel) (h : e.Allows n) : contentValidate fuel e n top = some true := by
  unfold contentValidate
  unfold Element.Allows at h
  split
  · rename_i ht
    rw [ht] at h
    rw [(haveChilds_iff _).2 h]
    rfl
  · rename_i l ht
    rw [ht] at h
    exact children_total (hl l ht) h (by simpa using hf)
  · rename_i ht
    rw [ht] at h
    exact h.elim
  · rename_i ht
    rw [ht] at h
    rw [(haveChilds_iff _).2 h.1, h.2]
    rfl
  · rfl
  · rfl

theorem content_ends {fuel : Nat} {e : Element} {n : Node} {top : Bool} (hl : ∀ l, e.type = .children l → l.ends = true)
    (hf : (Items.kids n.items).length < fuel) : contentValidate fuel e n top ≠ none := by
  unfold contentValidate
  split
  · simp
  · rename_i l ht
    exact children_ends (hl l ht) (by simpa using hf)
  · simp
  · simp
  · simp
  · simp

theorem Content.total_mono {l : Content} (h : l.total true = true) (top : Bool) : l.total top = true := by
  cases top with
  | true => exact h
  | false =>
    rw [Content.total] at h ⊢
    split at h
    · rw [if_pos ‹_›]
      simp only [Bool.and_eq_true] at h ⊢
      obtain ⟨h1, ⟨⟨h2, h3⟩, h4⟩, h5⟩ := h
      exact ⟨h1, ⟨⟨h2, by simp⟩, h4⟩, h5⟩
    · rw [if_neg ‹_›]; exact h

/-! ### From nodes to the document -/

theorem Dtd.Parsed.marks {d : Dtd} (h : d.Parsed) : Marks d := ⟨h.ids, h.refs, h.marked⟩

theorem Regular.plain {d : Dtd} {root : Node} (h : Regular d root) {n : Node} (hn : n ∈ nodes root) : Plain d n :=
  ⟨h.made n hn, h.ids n hn⟩

theorem rootElement_eq {d : Dtd} (h : d.Parsed) (n : Node) : d.rootElement n = d.element n.name := by
  obtain ⟨h1, h2⟩ | ⟨e, h1, h2⟩ := h.root
  · rw [Dtd.rootElement, h1, Dtd.element, h2]; rfl
  rw [Dtd.rootElement, h1]
  dsimp only
  split
  · rename_i hn
    rw [hn, h2]
  · rfl

/-- Lists of at most one value, one for each node, have no value twice when joined, if and only if no two places
share a value. -/
theorem flatMap_nodup {α β : Type} {f : α → List β} (h1 : ∀ a, (f a).length ≤ 1) : ∀ l : List α,
    (l.flatMap f).Nodup ↔ ∀ (i j : Nat) (a b : α) (v : β), l[i]? = some a → l[j]? = some b → v ∈ f a → v ∈ f b → i = j
  | [] => by simp
  | x :: xs => by
    have hx : (f x).Nodup := by
      have := h1 x
      match hl : f x, this with
      | [], _ => exact List.nodup_nil
      | [y], _ => simp
    rw [List.flatMap_cons, List.nodup_append, flatMap_nodup h1 xs]
    constructor
    · rintro ⟨-, h2, h3⟩ i j a b v hi hj ha hb
      cases i with
      | zero =>
        cases j with
        | zero => rfl
        | succ j =>
          simp only [List.getElem?_cons_zero, Option.some.injEq, List.getElem?_cons_succ] at hi hj
          subst hi
          exact absurd rfl (h3 v ha v (List.mem_flatMap.2 ⟨b, List.mem_of_getElem? hj, hb⟩))
      | succ i =>
        cases j with
        | zero =>
          simp only [List.getElem?_cons_zero, Option.some.injEq, List.getElem?_cons_succ] at hi hj
          subst hj
          exact absurd rfl (h3 v hb v (List.mem_flatMap.2 ⟨a, List.mem_of_getElem? hi, ha⟩))
        | succ j =>
          rw [List.getElem?_cons_succ] at hi hj
          rw [h2 i j a b v hi hj ha hb]
    · intro h
      refine ⟨hx, fun i j a b v hi hj ha hb => ?_, fun v hv w hw e => ?_⟩
      · have := h (i + 1) (j + 1) a b v (by simpa using hi) (by simpa using hj) ha hb
        omega
      · subst e
        obtain ⟨b, hb, hvb⟩ := List.mem_flatMap.1 hw
        obtain ⟨j, hj⟩ := List.getElem?_of_mem hb
        have := h 0 (j + 1) x b v rfl (by simpa using hj) hv hvb
        omega

theorem attributesHold_iff {d : Dtd} {root : Node} : AttributesHold d root ↔ (∀ n ∈ nodes root, Local d n) ∧
    ((nodes root).flatMap (idOf d)).Nodup ∧ ∀ r ∈ (nodes root).flatMap (refsOf d), r ∈ (nodes root).flatMap (idOf d) := by
  rw [flatMap_nodup (idOf_length d)]
  constructor
  · rintro ⟨h1, h2, h3⟩
    refine ⟨h1, fun i j a b v hi hj ha hb => h2 i j a b v hi hj (mem_idOf.1 ha) (mem_idOf.1 hb), fun r hr => ?_⟩
    obtain ⟨n, hn, hr⟩ := List.mem_flatMap.1 hr
    obtain ⟨m, hm, hi⟩ := h3 n hn r (mem_refsOf.1 hr)
    exact List.mem_flatMap.2 ⟨m, hm, mem_idOf.2 hi⟩
  · rintro ⟨h1, h2, h3⟩
    refine ⟨h1, fun i j a b v hi hj ha hb => h2 i j a b v hi hj (mem_idOf.2 ha) (mem_idOf.2 hb), fun n hn v hv => ?_⟩
    obtain ⟨m, hm, hi⟩ := List.mem_flatMap.1 (h3 v (List.mem_flatMap.2 ⟨n, hn, mem_refsOf.2 hv⟩))
    exact ⟨m, hm, mem_idOf.1 hi⟩

theorem nodes_todo (n : Node) : nodes n = n :: todo n [] := by rw [nodes_eq, todo]; simp

/-- What the loop checks is what the document must meet. -/
theorem good_attributes {d : Dtd} {fuel : Nat} {e : Element} {top : Bool} {n : Node} (h : Good d fuel e top n (todo n []) [] []) :
    AttributesHold d n := by
  rw [attributesHold_iff, nodes_todo]
  have h1 := h.once
  have h2 := h.refs
  rw [List.append_nil] at h1 h2
  exact ⟨h.loc, h1, fun r hr => h2 r hr⟩

theorem track_new (d : Dtd) : Track d ⟨if d.haveId then some newIds else none, if d.haveIdRef then some [] else none⟩ [] [] := by
  refine ⟨fun _ => rfl, fun h => ⟨newIds, ?_, holds_new⟩, fun h => ?_, fun h => ?_⟩
  · simp [h]
  · simp [h]
  · simp [h]

/-- `axl_dtd_validate` with a root declared EMPTY gives what the loop would give. -/
theorem validate_spec {d : Dtd} (hp : d.Parsed) (hany : d.NoAny) {root : Node} (hr : Regular d root) (fuel : Nat) :
    (validate fuel d root = .ok true → ∃ e, d.element root.name = some e ∧ Good d fuel e true root (todo root []) [] []) ∧
    ((nodes root).length ≤ fuel → (∃ e, d.element root.name = some e ∧ Good d fuel e true root (todo root []) [] []) →
      validate fuel d root = .ok true) ∧
    ((nodes root).length ≤ fuel → (∀ m ∈ nodes root, ∀ e ∈ d.elements, ∀ top, contentValidate fuel e m top ≠ none) →
      ∃ b, validate fuel d root = .ok b) := by
  unfold validate
  rw [rootElement_eq hp]
  cases he : d.element root.name with
  | none => exact ⟨fun h => by (cases h), fun _ h => by (obtain ⟨e, h, -⟩ := h; cases h), fun _ _ => ⟨false, rfl⟩⟩
  | some e =>
    dsimp only
    have hm : e ∈ d.elements := List.mem_of_find?_eq_some he
    have hP : ∀ m ∈ root :: todo root [], Plain d m := fun m h => hr.plain (by rw [nodes_todo]; exact h)
    have T := track_new d
    split
    · rename_i ht
      have hte : e.type = .empty := by
        cases h : e.type <;> rw [h] at ht <;> first | rfl | cases ht
      have hcv : contentValidate fuel e root true = some (root.items.isEmpty && !root.items.haveChilds) := by
        unfold contentValidate; rw [hte]
      split
      · rename_i hc
        have hk : Items.kids root.items = [] := by
          rw [Bool.and_eq_true, Bool.not_eq_true'] at hc
          exact (haveChilds_iff _).1 hc.2
        have htd : todo root [] = [] := by simp [todo, hk]
        obtain ⟨b, st1, e1, h1, T1⟩ := attrValidate_spec hp.marks (hP root (by simp)) T
        rw [e1, htd]
        cases b with
        | false =>
          dsimp only
          refine ⟨fun h => by (cases h), fun _ h => ?_, fun _ _ => ⟨false, rfl⟩⟩
          obtain ⟨e', h2, h3⟩ := h
          have := h1.2 ((good_last List.nodup_nil).1 h3).2.1
          cases this
        | true =>
          have h1 := h1.1 rfl
          obtain ⟨b, e2, h2⟩ := finish_spec hp.marks (T1 rfl)
          dsimp only
          rw [e2]
          refine ⟨fun h => ?_, fun _ h => ?_, fun _ _ => ⟨b, rfl⟩⟩
          · injection h with h
            exact ⟨e, rfl, (good_last List.nodup_nil).2 ⟨by rw [hcv, hc], h1, h2.1 h⟩⟩
          · obtain ⟨e', -, h3⟩ := h
            rw [h2.2 ((good_last List.nodup_nil).1 h3).2.2]
      · rename_i hc
        refine ⟨fun h => by (cases h), fun _ h => ?_, fun _ _ => ⟨false, rfl⟩⟩
        obtain ⟨e', h2, h3⟩ := h
        cases h2
        have := h3.content
        rw [hcv] at this
        injection this with this
        exact absurd this hc
    · obtain ⟨q1, q2, q3⟩ := validateLoop_spec hp.marks hany fuel fuel root e true [] _ [] [] hm hP T List.nodup_nil
      have hlen : (nodes root).length = (todo root []).length + 1 := by rw [nodes_todo]; rfl
      refine ⟨fun h => ⟨e, rfl, q1 h⟩, fun hk h => ?_, fun hk h => ?_⟩
      · obtain ⟨e', h2, h3⟩ := h
        cases h2
        exact q2 (by omega) h3
      · exact q3 (by omega) (by rw [← nodes_todo]; exact h)

/-! ### Termination, whatever the attributes -/

theorem validateLoop_ends {d : Dtd} (hany : d.NoAny) (fuel : Nat) :
    ∀ (k : Nat) (n : Node) (e : Element) (top : Bool) (stack : List Node) (st : IdState), e ∈ d.elements →
      (todo n stack).length < k → (∀ m ∈ n :: todo n stack, ∀ e ∈ d.elements, ∀ top, contentValidate fuel e m top ≠ none) →
      validateLoop d fuel k n e top stack st ≠ .loop
  | 0, _, _, _, _, _, _, h, _ => absurd h (Nat.not_lt_zero _)
  | k + 1, n, e, top, stack, st, he, hk, hc => by
    rw [validateLoop]
    split
    · simp
    · simp
    · split
      · exact absurd ‹_› (hc n (by simp) e he top)
      · simp
      · rw [hany e he]
        simp only [if_neg Bool.false_ne_true]
        cases hs : (Items.kids n.items).reverse ++ stack with
        | nil =>
          dsimp only
          unfold finish
          split <;> simp
        | cons m rest =>
          have pm := todo_perm hs
          have hlen : (todo n stack).length = (todo m rest).length + 1 := by rw [pm.length_eq]; rfl
          dsimp only
          cases hm : d.element m.name with
          | none => simp
          | some e' =>
            dsimp only
            exact validateLoop_ends hany fuel k m e' false rest _ (List.mem_of_find?_eq_some hm) (by omega)
              fun x hx => hc x (List.mem_cons_of_mem _ (pm.mem_iff.2 hx))

theorem validate_ends {d : Dtd} (hp : d.Parsed) (hany : d.NoAny) (hl : d.Models fun l => l.ends = true) {root : Node} {fuel : Nat}
    (hf : (nodes root).length ≤ fuel) : validate fuel d root ≠ .loop := by
  unfold validate
  rw [rootElement_eq hp]
  cases he : d.element root.name with
  | none => simp
  | some e =>
    dsimp only
    split
    · split
      · split
        · simp
        · simp
        · unfold finish
          split <;> simp
      · simp
    · refine validateLoop_ends hany fuel fuel root e true [] _ (List.mem_of_find?_eq_some he) ?_ ?_
      · rw [nodes_todo, List.length_cons] at hf
        omega
      · intro m hm e he top
        have hm : m ∈ nodes root := by rw [nodes_todo]; exact hm
        exact content_ends (hl e he) (Nat.lt_of_lt_of_le (kids_lt hm) hf)

/-- Conforming is what the loop checks. -/
theorem conforms_iff {d : Dtd} {root : Node} {fuel : Nat} (hx : d.Models fun l => l.exact = true ∧ l.total false = true)
    (hroot : ∀ e l, d.element root.name = some e → e.type = .children l → l.total true = true) (hf : (nodes root).length ≤ fuel) :
    Conforms d root ↔ ∃ e, d.element root.name = some e ∧ Good d fuel e true root (todo root []) [] [] := by
  constructor
  · rintro ⟨h1, h2⟩
    obtain ⟨e, he, ha⟩ := h1 root (self_mem root)
    rw [attributesHold_iff, nodes_todo] at h2
    refine ⟨e, he, ?_, ?_, h2.1, by rw [List.append_nil]; exact h2.2.1, ?_⟩
    · exact content_of_allows (fun l hl => hroot e l he hl) (Nat.lt_of_lt_of_le (kids_lt (self_mem root)) hf) ha
    · intro m hm
      have hm : m ∈ nodes root := by rw [nodes_todo]; exact List.mem_cons_of_mem _ hm
      obtain ⟨e', he', ha'⟩ := h1 m hm
      exact ⟨e', he', content_of_allows (fun l hl => (hx e' (List.mem_of_find?_eq_some he') l hl).2)
        (Nat.lt_of_lt_of_le (kids_lt hm) hf) ha'⟩
    · rw [List.append_nil]
      exact h2.2.2
  · rintro ⟨e, he, G⟩
    refine ⟨fun n hn => ?_, good_attributes G⟩
    rw [nodes_todo, List.mem_cons] at hn
    rcases hn with rfl | hn
    · exact ⟨e, he, allows_of_content (fun l hl => (hx e (List.mem_of_find?_eq_some he) l hl).1) G.content⟩
    · obtain ⟨e', he', hc⟩ := G.declared n hn
      exact ⟨e', he', allows_of_content (fun l hl => (hx e' (List.mem_of_find?_eq_some he') l hl).1) hc⟩

end Axl.Dtd
