/-
Property C57: the memory of documents and nodes.
-/
import Verif.Proofs.OwnStep
import Verif.Model.Lit

namespace Axl
open Own Own.Spec

theorem some_of_any {α} {o : Option α} {p : α → Bool} (h : o.any p = true) : ∃ x, o = some x ∧ p x = true := by
  cases o with
  | none => simp at h
  | some x => exact ⟨x, rfl, by simpa using h⟩

/-- The concrete names of the examples. -/
private def names (k : Nat) : List (List Char) := (List.range k).map fun i => ['a', Char.ofNat (97 + i)]

/-- The result of a history: whether every document and node was freed, and the blocks that were not given back. -/
private def outcome (ops : List Op) : Option (Bool × List Nat) := (run id World.empty ops).map fun w => (AllFreed w, w.store.live)

/-- **C57** (partial: calls as in `fits`).  For every history of calls of the document API and the node API, made as they
are meant, no call reads memory that is gone or gives back memory twice, and once every document and every node was
freed every block was given back.

Missing: `axl_node_set_name_ref` on a name that the parser read and `axl_node_replace` with a node that has an item
of its own, of which the claim is false (`C57_name_leaks`, `C57_item_leaks`). -/
theorem C57_released_once_partial (esc : List Char → List Char) (ops : List Op) (hf : Fits esc World.empty ops = true) :
    ∃ w, run esc World.empty ops = some w ∧ w.store.live.Nodup ∧ (AllFreed w = true → w.store.live = []) := by
  obtain ⟨w, e, h⟩ := run_ok ops WF.empty hf
  refine ⟨w, e, h.st.nodup, fun ha => ?_⟩
  have := h.st.perm
  rw [allFreed_blocks ha] at this
  exact List.perm_nil.mp this

/-- A history with a document that is parsed, one that is made by hand, moves between them, eleven attributes and then
ten, copies, replacements and annotations. -/
private def history : List Op :=
  [ .parse true false [true, false] (.mk (names 12) (.leaf (.text .content) (.node (.mk [c!"id"] (.leaf (.text .cdata) .nil)) (.leaf (.pi true) (.leaf (.text .comment) .nil))))),
    .docCreate true true, .create, .setRoot 1 0,
    .removeAttr ⟨.doc 0, []⟩ c!"aa", .removeAttr ⟨.doc 0, []⟩ c!"ab",
    .create, .setChild ⟨.doc 0, [1]⟩ 1, .setAttr ⟨.doc 0, [1, 1]⟩ c!"x", .setAttr ⟨.doc 0, [1, 1]⟩ c!"x",
    .annotate ⟨.doc 0, []⟩ c!"k" 1, .annotate ⟨.doc 0, []⟩ c!"k" 2,
    .copy ⟨.doc 0, []⟩ true true, .setChild ⟨.doc 1, []⟩ 2, .setName ⟨.doc 1, [0]⟩, .setNameRef ⟨.doc 1, [0]⟩,
    .setText ⟨.doc 1, []⟩ .content, .addPi ⟨.doc 1, []⟩ true, .transfer ⟨.doc 1, [0]⟩ ⟨.doc 1, []⟩,
    .removeNode ⟨.doc 0, [1, 1]⟩ false, .setIsEmpty ⟨.doc 0, [1]⟩, .create, .replaceNode ⟨.doc 0, [1]⟩ 4 true,
    .removeItem ⟨.doc 0, []⟩ 2, .nodeFree 3, .docFree 0, .docPi 1 false, .removeNode ⟨.doc 1, [0]⟩ true, .docFree 1 ]

example : Fits id World.empty history = true := by decide +kernel
example : outcome history = some (true, []) := by decide +kernel

/-- **C57** (partial: as above).  From whatever state the calls lead to, if no document holds a node of another one,
freeing the nodes that are in no document and then the documents is defined and gives back every block. -/
theorem C57_all_can_be_freed_partial (esc : List Char → List Char) (ops : List Op) (hf : Fits esc World.empty ops = true)
    (w : World) (hw : run esc World.empty ops = some w) (ha : Apart w = true) :
    ∃ w', run esc w (freeLoose w ++ freeDocs w) = some w' ∧ AllFreed w' = true ∧ w'.store.live = [] := by
  obtain ⟨w0, e, h⟩ := run_ok ops WF.empty hf
  rw [hw] at e
  simp only [Option.some.injEq] at e
  subst e
  -- the nodes
  have hl : freeLoose w = ((List.range w.loose.length).filter fun k => (w.tree (.loose k)).isSome).map .nodeFree := by
    simp only [freeLoose]
    generalize List.range w.loose.length = l
    induction l with
    | nil => rfl
    | cons k l ih => cases hq : w.tree (.loose k) <;> simp [hq, ih]
  have hd : freeDocs w = ((List.range w.docs.length).filter fun d => hasDoc w d).map .docFree := by
    simp only [freeDocs]
    generalize List.range w.docs.length = l
    induction l with
    | nil => rfl
    | cons k l ih => cases hq : w.docs[k]?.join <;> simp [hasDoc, hq, ih]
  obtain ⟨w1, e1, h1, d1, n1, t1⟩ := freeLoose_run (esc := esc) ((List.range w.loose.length).filter fun k => (w.tree (.loose k)).isSome) h
    (List.nodup_range.filter _) (fun k hk => (List.mem_filter.mp hk).2)
  have hnone : ∀ o ∈ w1.loose, o = none := by
    intro o ho
    obtain ⟨k, hk, rfl⟩ := List.mem_iff_getElem.mp ho
    have hk' : k < w.loose.length := by omega
    have h1 : w1.tree (.loose k) = w1.loose[k] := by simp [World.tree, List.getElem?_eq_getElem hk]
    rw [← h1, t1 k]
    cases hq : w.tree (.loose k) with
    | none => simp
    | some x => rw [if_pos (List.mem_filter.mpr ⟨by simpa using hk', by simp [hq]⟩)]
  have hap : Apart w1 = true := by
    simp only [Apart, World.tree, d1] at ha ⊢
    exact ha
  obtain ⟨w2, e2, h2, l2, n2, t2⟩ := freeDocs_run (esc := esc) ((List.range w.docs.length).filter fun d => hasDoc w d) h1
    (List.nodup_range.filter _) (fun d hd => by
      have := (List.mem_filter.mp hd).2
      simpa [hasDoc, d1] using this) hnone hap
  have hall : AllFreed w2 = true := by
    simp only [AllFreed, Bool.and_eq_true, List.all_eq_true]
    constructor
    · intro o ho
      obtain ⟨k, hk, rfl⟩ := List.mem_iff_getElem.mp ho
      have := t2 k
      simp only [List.getElem?_eq_getElem hk, Option.join_some] at this
      rw [this]
      have hk' : k < w.docs.length := by rw [n2, d1] at hk; exact hk
      rw [d1]
      cases hq : w.docs[k]?.join with
      | none => simp
      | some x => rw [if_pos (List.mem_filter.mpr ⟨by simpa using hk', by simp [hasDoc, hq]⟩)]; rfl
    · intro o ho
      rw [l2] at ho
      rw [hnone o ho]; rfl
  refine ⟨w2, ?_, hall, ?_⟩
  · rw [run_append, hl, e1, Option.bind_some, hd]
    exact e2
  · have := h2.st.perm
    rw [allFreed_blocks hall] at this
    exact List.perm_nil.mp this

example : ∃ w, run id World.empty (history.take 24) = some w ∧ Apart w = true ∧ (freeLoose w ++ freeDocs w).length = 3 := by
  have h : ((run id World.empty (history.take 24)).any fun w => Apart w && (freeLoose w ++ freeDocs w).length == 3) = true := by decide +kernel
  obtain ⟨w, e, hw⟩ := some_of_any h
  exact ⟨w, e, by simpa using hw⟩

/-- **C57**: not of the code.  `axl_node_set_name_ref` on a node that the parser made keeps the mark that the name is in
the memory of the document: the name given to the node is never freed. -/
theorem C57_name_leaks : ∃ b, outcome [.parse false false [] (.mk [] .nil), .setNameRef ⟨.doc 0, []⟩, .docFree 0] = some (true, [b]) :=
  ⟨9, by decide +kernel⟩

/-- **C57**: not of the code.  `axl_node_replace` with a node that was in another one before loses the item the node had. -/
theorem C57_item_leaks : ∃ b, outcome
    [.create, .create, .create, .setChild ⟨.loose 0, []⟩ 1, .setChild ⟨.loose 0, []⟩ 2, .removeNode ⟨.loose 0, [1]⟩ false,
     .replaceNode ⟨.loose 0, [0]⟩ 3 true, .nodeFree 0] = some (true, [b]) :=
  ⟨7, by decide +kernel⟩

/-- A node made by hand with a child made by hand, as `axl_node_set_child` leaves them. -/
private def family : Option (Store × Node) := do
  let w ← run id World.empty [.create, .create, .setChild ⟨.loose 0, []⟩ 1]
  let n ← w.tree (.loose 0)
  some (w.store, n)

/-- **C57**: not of the code.  `axl_node_free_full` does the same whatever it is told about the children: they are never
freed, even if it is asked for. -/
theorem C57_free_full_leaves_children : (∀ s n, freeNodeFull s true n = freeNodeFull s false n) ∧
    ∃ s n, family = some (s, n) ∧ ∃ s', freeNodeFull s true n = some s' ∧ s'.live ≠ [] := by
  refine ⟨fun s n => rfl, ?_⟩
  have h : (family.any fun x => (freeNodeFull x.1 true x.2).any fun s => s.live != []) = true := by decide +kernel
  obtain ⟨⟨s, n⟩, e, hx⟩ := some_of_any h
  obtain ⟨s', e', hs⟩ := some_of_any hx
  exact ⟨s, n, e, s', e', by simpa using hs⟩

/-- **C57**: not of the code.  A node that was made with `axl_node_create` and taken out of a document with
`axl_node_deattach` cannot be freed after the document: the item it was in is in the memory of the document. -/
theorem C57_deattached_dies_with_document :
    ∃ w, run id World.empty [.docCreate false false, .create, .setRoot 0 0, .create, .setChild ⟨.doc 0, []⟩ 1,
      .removeNode ⟨.doc 0, [0]⟩ false, .docFree 0] = some w ∧ hasNode w ⟨.loose 2, []⟩ = true ∧ step id w (.nodeFree 2) = none := by
  have h : ((run id World.empty [.docCreate false false, .create, .setRoot 0 0, .create, .setChild ⟨.doc 0, []⟩ 1,
      .removeNode ⟨.doc 0, [0]⟩ false, .docFree 0]).any fun w => hasNode w ⟨.loose 2, []⟩ && (step id w (.nodeFree 2)).isNone) = true := by decide +kernel
  obtain ⟨w, e, hw⟩ := some_of_any h
  simp only [Bool.and_eq_true, Option.isNone_iff_eq_none] at hw
  exact ⟨w, e, hw.1, hw.2⟩

/-- **C57**: not of the code.  Two documents that each hold a node of the other: whichever is freed first, freeing the
other is not defined. -/
theorem C57_neither_first :
    (run id World.empty [.parse false false [] (.mk [] (.node (.mk [] .nil) .nil)), .parse false false [] (.mk [] (.node (.mk [] .nil) .nil)),
      .removeNode ⟨.doc 0, [0]⟩ false, .removeNode ⟨.doc 1, [0]⟩ false, .setChild ⟨.doc 0, []⟩ 1, .setChild ⟨.doc 1, []⟩ 0]).isSome = true ∧
    ∀ order ∈ [[Op.docFree 0, .docFree 1], [.docFree 1, .docFree 0]],
      outcome ([.parse false false [] (.mk [] (.node (.mk [] .nil) .nil)), .parse false false [] (.mk [] (.node (.mk [] .nil) .nil)),
        .removeNode ⟨.doc 0, [0]⟩ false, .removeNode ⟨.doc 1, [0]⟩ false, .setChild ⟨.doc 0, []⟩ 1, .setChild ⟨.doc 1, []⟩ 0] ++ order) = none := by
  decide +kernel

end Axl
