/-
C38: namespaces.
-/
import Verif.Proofs.Ns
import Verif.Props.Tree
import Verif.Props.Attr
import Verif.Model.Lit

namespace Axl.NsState
open Spec.Tree Spec.Tree.Forest Spec.Annotate Spec.Ns Heap Notes

theorem lists_rep {a : Attrs} {ps : Pairs} (hm : a.Made) (hl : a.Lists ps) : Attrs.Rep a ps := by
  obtain ⟨qs, hr⟩ := Attrs.Made.rep hm
  have hq := Attrs.rep_lists hr (List.Perm.refl qs)
  have nd : ∀ {l : Pairs}, (l.map (·.1)).Nodup → l.Nodup := fun h => List.Pairwise.of_map _ (fun a b hab e => hab (by rw [e])) h
  refine Attrs.rep_perm hr ((List.perm_ext_iff_of_nodup (nd hq.once) (nd hl.once)).2 fun x => ?_)
  rw [show x = (x.1, x.2) from rfl, hq.mem, hl.mem]

/-- What the theorems say about: a tree built by a history of C24, annotated by any calls that do not use the
key of the library, the attributes of its nodes being set and removed through the API in any way, and a
root.  No attribute begins with "xmlns" without being a declaration: see `C38_not_a_declaration`. -/
structure Setting (ops : List Op) (cs : List Call) (as : Nat → Attrs) (ps : Nat → Pairs) (root : Nat) (h : Heap) (a : Notes) : Prop where
  fits  : Forest.empty.Fits ops = true
  heap  : Heap.empty.run ops = some h
  keys  : ∀ c ∈ cs, c.key ≠ nsKey
  notes : Spec.Annotate.run (fun _ => none) cs = some a
  attrs : ∀ n, (Forest.empty.run ops).live n = true → (as n).Made ∧ (as n).Lists (ps n)
  clean : ∀ n, (Forest.empty.run ops).live n = true → ∀ x ∈ ps n, c!"xmlns" <+: x.1 → IsDeclaration x.1
  live  : (Forest.empty.run ops).live root = true
  top   : h.getParent root = some none

/-- The state before the first validation. -/
def before (a : Notes) : NsState := ⟨a, fun _ => none, 0⟩

variable {ops : List Op} {cs : List Call} {as : Nat → Attrs} {ps : Nat → Pairs} {root : Nat} {h : Heap} {a : Notes}

theorem Setting.parts (S : Setting ops cs as ps root h a) : ∃ ns, Heap.Rep h (Forest.empty.run ops) ns ∧ Tame (Forest.empty.run ops) ∧
    Given (Forest.empty.run ops) as ps ∧ Wf (before a) ∧ (∀ m, (before a).here m = some none) ∧
    UpTo h (Forest.empty.run ops) root [] := by
  obtain ⟨h', e, ⟨ns, R⟩, T⟩ := inv_run ops inv_empty S.fits
  rw [S.heap] at e
  cases e
  obtain ⟨a', e2, A⟩ := after_run cs [] (a := fun _ => none) (fun n => rfl)
  rw [S.notes] at e2
  cases e2
  rw [List.nil_append] at A
  have hh : ∀ m, (before a).here m = some none := by
    intro m
    show a.getHere m nsKey = _
    rw [getHere_spec A]
    have : cs.reverse.find? (fun c => c.node == m && c.key == nsKey) = none := by
      rw [List.find?_eq_none]
      intro c hc
      have := S.keys c (by simpa using hc)
      simp [this]
    simp [lastOf, this]
  refine ⟨ns, R, T, ⟨fun n hn => lists_rep (S.attrs n hn).1 (S.attrs n hn).2, fun n hn x hx hd => S.clean n hn x hx ((isXmlns_iff _).1 hd)⟩,
    ⟨⟨_, A⟩, fun m q hq => by rw [hh m] at hq; cases hq⟩, hh, ⟨S.live, ?_, S.top⟩⟩
  refine .top fun p hp hc => ?_
  have := (R.shows hp).parents root hc
  rw [S.top] at this
  cases this

/-- Every node below a root has its ancestors. -/
theorem Setting.up (S : Setting ops cs as ps root h a) {m : Nat} (hm : Reach (Forest.empty.run ops) root m) :
    ∃ path, UpTo h (Forest.empty.run ops) m path ∧ ∀ p ∈ m :: path, Reach (Forest.empty.run ops) root p := by
  obtain ⟨ns, R, T, _, _, _, U⟩ := S.parts
  induction hm with
  | refl => exact ⟨[], U, by simpa using .refl⟩
  | tail hr e ih =>
    obtain ⟨path, U', hp⟩ := ih
    refine ⟨_, U'.down T e, fun p hx => ?_⟩
    rcases List.mem_cons.1 hx with rfl | hx
    · exact hr.tail e
    · exact hp p hx

theorem Setting.validated (S : Setting ops cs as ps root h a) :
    Validates (Forest.empty.run ops) ps (Reach (Forest.empty.run ops) root) (AllBound (Forest.empty.run ops) ps root) (before a)
      (validate as h (before a) (some root)) := by
  obtain ⟨ns, R, T, G, W, hh, U⟩ := S.parts
  refine validateDepth_spec R T G h.nextNode root [] (before a) ?_ U W (by simp) (fun m _ => hh m)
  rw [R.next]
  exact depth_next T S.live

/-- After a validation that succeeds, the comparison of names is right. -/
theorem Setting.cmp (S : Setting ops cs as ps root h a) {st : NsState} (hv : validate as h (before a) (some root) = some (true, st))
    {m : Nat} {path : List Nat} (hm : Reach (Forest.empty.run ops) root m) (hp : Ancestors (Forest.empty.run ops) m path) (ns name : List Char) :
    nodeCmp h st m ns name = some (isCalled (Forest.empty.run ops) ps (m :: path) m ns name) := by
  obtain ⟨ns, R, T, _, _, _, _⟩ := S.parts
  obtain ⟨b, st', e, _, hs, _⟩ := S.validated
  rw [hv] at e
  cases e
  obtain ⟨path', U, hr⟩ := S.up hm
  cases ancestors_unique R.single hp U.anc
  exact nodeCmp_spec R T U (fun p hx => hs rfl p (hr p hx)) _ _

/-- **C38**, validation: axl_ns_doc_validate answers, and the answer is true exactly if every prefix
of the names of the nodes of the document and of their attributes (the declarations apart) is declared in the node
or in an ancestor.  "xml" is a prefix like the others: see `C38_xml_prefix`. -/
theorem C38_validate_partial (S : Setting ops cs as ps root h a) :
    ∃ b st, validate as h (before a) (some root) = some (b, st) ∧
      (b = true ↔ ∀ m path, (Forest.empty.run ops).below root m = true → Ancestors (Forest.empty.run ops) m path →
        NodeBound (Forest.empty.run ops) ps (m :: path) m) := by
  obtain ⟨ns, R, T, _, _, _, _⟩ := S.parts
  obtain ⟨b, st, e, _, _, hb⟩ := S.validated
  refine ⟨b, st, e, hb.trans ⟨fun g m mp hm => g m mp ((below_iff T S.live).1 hm), fun g m mp hm => g m mp ((below_iff T S.live).2 hm)⟩⟩

/-- **C38**, comparison: after a validation that succeeded, axl_ns_node_cmp says of every node of the
document whether its local name is the name given and the namespace of its prefix (the default one, if it has no prefix) in the
nearest declaration, in the node or above it, is the namespace given. -/
theorem C38_cmp_partial (S : Setting ops cs as ps root h a) (st : NsState) (hv : validate as h (before a) (some root) = some (true, st))
    (m : Nat) (path : List Nat) (hm : (Forest.empty.run ops).below root m = true) (hp : Ancestors (Forest.empty.run ops) m path)
    (ns name : List Char) :
    nodeCmp h st m ns name = some (isCalled (Forest.empty.run ops) ps (m :: path) m ns name) := by
  obtain ⟨_, R, T, _, _, _, _⟩ := S.parts
  exact S.cmp hv ((below_iff T S.live).1 hm) hp ns name

/-- **C38**, children and siblings: after a validation that succeeded, axl_ns_node_get_child_called gives the first child with this name in
this namespace, axl_ns_node_get_next_called the first one of the following siblings, and
axl_ns_node_get_previous_called the nearest one of the siblings before; NULL if there is none. -/
theorem C38_called_partial (S : Setting ops cs as ps root h a) (st : NsState) (hv : validate as h (before a) (some root) = some (true, st))
    (p : Nat) (path : List Nat) (hm : (Forest.empty.run ops).below root p = true) (hp : Ancestors (Forest.empty.run ops) p path)
    (ns name : List Char) :
    getChildCalled h st p ns name = some ((nodesOf ((Forest.empty.run ops).kids p)).find?
      fun c => isCalled (Forest.empty.run ops) ps (c :: p :: path) c ns name) ∧
    ∀ xs n ys, nodesOf ((Forest.empty.run ops).kids p) = xs ++ n :: ys →
      getNextCalled h st n ns name = some (ys.find? fun c => isCalled (Forest.empty.run ops) ps (c :: p :: path) c ns name) ∧
      getPreviousCalled h st n ns name =
        some (xs.reverse.find? fun c => isCalled (Forest.empty.run ops) ps (c :: p :: path) c ns name) := by
  obtain ⟨_, R, T, _, _, _, _⟩ := S.parts
  have hr := (below_iff T S.live).1 hm
  have hl := T.reach_live S.live hr
  have hA : Asks h st ns name (nodesOf ((Forest.empty.run ops).kids p)) fun c => isCalled (Forest.empty.run ops) ps (c :: p :: path) c ns name :=
    ⟨fun c hc => S.cmp hv (hr.tail ⟨hl, mem_nodesOf.mp hc⟩) (.up hl (mem_nodesOf.mp hc) hp) ns name⟩
  exact ⟨getChildCalled_spec R T hl hA, fun xs n ys hk => ⟨getNextCalled_spec R T hl hA hk, getPreviousCalled_spec R T hl hA hk⟩⟩

/-- **C38**, search: after a validation that succeeded, axl_ns_node_find_called gives a node strictly below with this
name in this namespace, and gives NULL only if there is none. -/
theorem C38_find_partial (S : Setting ops cs as ps root h a) (st : NsState) (hv : validate as h (before a) (some root) = some (true, st))
    (n : Nat) (hm : (Forest.empty.run ops).below root n = true) (ns name : List Char) :
    ∃ r, findCalled h st n ns name = some r ∧
      (∀ m, r = some m → m ≠ n ∧ (Forest.empty.run ops).below n m = true ∧
        ∃ path, Ancestors (Forest.empty.run ops) m path ∧ isCalled (Forest.empty.run ops) ps (m :: path) m ns name = true) ∧
      (r = none → ∀ m path, m ≠ n → (Forest.empty.run ops).below n m = true → Ancestors (Forest.empty.run ops) m path →
        isCalled (Forest.empty.run ops) ps (m :: path) m ns name = false) := by
  obtain ⟨_, R, T, _, _, _, _⟩ := S.parts
  have hr := (below_iff T S.live).1 hm
  have hl := T.reach_live S.live hr
  have hc : ∀ m, Reach (Forest.empty.run ops) n m → nodeCmp h st m ns name = some ((nodeCmp h st m ns name).getD false) := by
    intro m hx
    obtain ⟨path, U, _⟩ := S.up (hr.trans hx)
    rw [S.cmp hv (hr.trans hx) U.anc]
    rfl
  have hd : Depth (Forest.empty.run ops) h.nextNode n := by rw [R.next]; exact depth_next T hl
  obtain ⟨o, e, h1, h2⟩ := findDepth_spec R T h.nextNode n hd hl hc
  refine ⟨o, e, fun m hx => ?_, fun ho m path hne hx hA => ?_⟩
  · obtain ⟨⟨c, ec, hr'⟩, ht⟩ := h1 m hx
    have hnm : Reach (Forest.empty.run ops) n m := .head ec hr'
    refine ⟨fun e => T.no_cycle ec (e ▸ hr'), (below_iff T hl).2 hnm, ?_⟩
    obtain ⟨path, U, _⟩ := S.up (hr.trans hnm)
    refine ⟨path, U.anc, ?_⟩
    have := S.cmp hv (hr.trans hnm) U.anc ns name
    simpa only [this, Option.getD_some] using ht
  · have hnm := (below_iff T hl).1 hx
    rcases hnm.cases_head with e | ⟨c, ec, hr'⟩
    · exact (hne e.symm).elim
    · have := S.cmp hv (hr.trans hnm) hA ns name
      have ht := h2 ho c m ec hr'
      simpa only [this, Option.getD_some] using ht

/-! ### An example: `<p:r xmlns:p="u" xmlns="d"><a p:x="1"/><p:b xmlns:p="w"><p:c/></p:b></p:r>` -/

def nsOps : List Op :=
  [.create c!"p:r", .create c!"a", .create c!"p:b", .create c!"p:c", .setChild 0 (.node 1), .setChild 0 (.text .content c!"t"),
   .setChild 0 (.node 2), .setChild 2 (.node 3)]
def nsAttrs : Nat → Attrs
  | 0 => ⟨2, .list [⟨c!"xmlns", c!"d", false⟩, ⟨c!"xmlns:p", c!"u", false⟩]⟩
  | 1 => ⟨1, .list [⟨c!"p:x", c!"1", false⟩]⟩
  | 2 => ⟨1, .list [⟨c!"xmlns:p", c!"w", false⟩]⟩
  | _ => Attrs.empty
def nsPairs : Nat → Pairs
  | 0 => [(c!"xmlns", c!"d"), (c!"xmlns:p", c!"u")]
  | 1 => [(c!"p:x", c!"1")]
  | 2 => [(c!"xmlns:p", c!"w")]
  | _ => []

theorem lists_list (l : List Attr) (hl : l.length ≤ 10) (hd : (l.map (·.name)).Nodup) :
    (⟨l.length, .list l⟩ : Attrs).Lists (l.map fun x => (x.name, x.value)) :=
  Attrs.rep_lists (ps := l.map Attrs.kv) ⟨by rw [List.map_map]; exact hd, rfl, hl, .refl _⟩ (.refl _)

/-- The hypotheses hold of the example. -/
theorem nsSetting : ∃ h a, Setting nsOps [] nsAttrs nsPairs 0 h a := by
  obtain ⟨h, e, I⟩ := inv_run nsOps inv_empty (by decide)
  have ha : ∀ n, (nsAttrs n).Made ∧ (nsAttrs n).Lists (nsPairs n) := by
    intro n
    match n with
    | 0 => exact ⟨.of ⟨[.setRef c!"xmlns:p" c!"u" false, .setRef c!"xmlns" c!"d" false], by decide, rfl⟩, lists_list [_, _] (by decide) (by decide)⟩
    | 1 => exact ⟨.of ⟨[.setRef c!"p:x" c!"1" false], by decide, rfl⟩, lists_list [_] (by decide) (by decide)⟩
    | 2 => exact ⟨.of ⟨[.setRef c!"xmlns:p" c!"w" false], by decide, rfl⟩, lists_list [_] (by decide) (by decide)⟩
    | _ + 3 => exact ⟨.of ⟨[], by decide, rfl⟩, lists_list [] (by decide) (by decide)⟩
  refine ⟨h, fun _ => none, by decide, e, by simp, rfl, fun n _ => ha n, ?_, by decide, ?_⟩
  · intro n _ x hx hp
    match n with
    | 0 =>
      simp only [nsPairs, List.mem_cons, List.not_mem_nil, or_false] at hx
      rcases hx with rfl | rfl
      · exact Or.inl rfl
      · exact Or.inr ⟨c!"p", rfl⟩
    | 1 =>
      simp only [nsPairs, List.mem_cons, List.not_mem_nil, or_false] at hx
      subst hx
      exact absurd (List.isPrefixOf_iff_prefix.2 hp) (by decide)
    | 2 =>
      simp only [nsPairs, List.mem_cons, List.not_mem_nil, or_false] at hx
      subst hx
      exact Or.inr ⟨c!"p", rfl⟩
    | _ + 3 => simp [nsPairs] at hx
  · have : (Heap.empty.run nsOps).bind (fun h => h.getParent 0) = some none := by decide +kernel
    rw [e] at this
    exact this

/-- The example is valid; the prefix of node 3 has the namespace of the nearest declaration, and not the one of the root. -/
example : (Heap.empty.run nsOps).bind (fun h => (validate nsAttrs h (before fun _ => none) (some 0)).bind fun (b, st) =>
    (nodeCmp h st 3 c!"w" c!"c").bind fun x => (nodeCmp h st 3 c!"u" c!"c").bind fun y => (nodeCmp h st 0 c!"u" c!"r").bind fun z =>
    (nodeCmp h st 1 c!"d" c!"a").bind fun t => (findCalled h st 0 c!"w" c!"c").map fun u => (b, [x, y, z, t], u)) =
    some (true, [true, false, true, true], some 3) := by decide +kernel
example : isCalled (Forest.empty.run nsOps) nsPairs [3, 2, 0] 3 c!"w" c!"c" = true := by decide
example : isCalled (Forest.empty.run nsOps) nsPairs [3, 2, 0] 3 c!"u" c!"c" = false := by decide
example : Ancestors (Forest.empty.run nsOps) 3 [2, 0] := by
  obtain ⟨h, a, S⟩ := nsSetting
  obtain ⟨_, R, T, _, _, _, U⟩ := S.parts
  exact .up (by decide) (by decide) (.up (by decide) (by decide) U.anc)
/-- Without the declaration in the root the document is not valid. -/
example : (Heap.empty.run nsOps).bind (fun h => (validate (fun n => if n = 0 then Attrs.empty else nsAttrs n) h (before fun _ => none)
    (some 0)).map (·.1)) = some false := by decide +kernel

/-! ### Where the property is false of the code -/

/-- An attribute that only begins with "xmlns" is taken for a declaration: here, of the prefix "a". -/
theorem C38_not_a_declaration :
    (let ops : List Op := [.create c!"a:r"]
     let attrs : Nat → Attrs := fun _ => ⟨1, .list [⟨c!"xmlnsXa", c!"u", false⟩]⟩
     (Heap.empty.run ops).bind fun h => (validate attrs h (before fun _ => none) (some 0)).bind fun (b, st) =>
       (nodeCmp h st 0 c!"u" c!"r").map fun x => (b, x)) = some (true, true) ∧
    ¬ NodeBound (Forest.empty.run [.create c!"a:r"]) (fun _ => [(c!"xmlnsXa", c!"u")]) [0] 0 := by
  refine ⟨by decide +kernel, fun hb => ?_⟩
  obtain ⟨ns, hn⟩ := hb.1 c!"a" (by decide)
  have : space (fun _ => [(c!"xmlnsXa", c!"u")]) [0] (some c!"a") = none := by decide
  rw [this] at hn
  cases hn

/-- The prefix "xml", which needs no declaration in XML, must be declared: a document with xml:space does not validate. -/
theorem C38_xml_prefix :
    (let ops : List Op := [.create c!"r"]
     let attrs : Nat → Attrs := fun _ => ⟨1, .list [⟨c!"xml:space", c!"preserve", false⟩]⟩
     (Heap.empty.run ops).bind fun h => (validate attrs h (before fun _ => none) (some 0)).map (·.1)) = some false := by
  decide +kernel

/-- A second validation keeps the declarations of the first one in a node whose declarations were removed: the prefix is still known. -/
theorem C38_removed_declaration :
    (let ops : List Op := [.create c!"a:r"]
     let attrs : Attrs := ⟨1, .list [⟨c!"xmlns:a", c!"u", false⟩]⟩
     (Heap.empty.run ops).bind fun h => (validate (fun _ => attrs) h (before fun _ => none) (some 0)).bind fun (b, st) =>
       (attrs.removeAttribute c!"xmlns:a").bind fun attrs' =>
       (validate (fun _ => attrs') h st (some 0)).bind fun (b', st') =>
         (nodeCmp h st' 0 c!"u" c!"r").map fun x => (b, attrs'.hasAttributes, b', x)) = some (true, false, true, true) := by
  decide +kernel

end Axl.NsState
