/-
Proofs for C57: each call.
-/
import Verif.Proofs.OwnWorld

namespace Axl.Own
open Spec

theorem at_of_nodeAt : ∀ (l : Items) (i : Nat) {m}, l.nodeAt? i [] = some m → l.at? i = some (.node m .nil)
  | .nil, _, _, h => by simp [Items.nodeAt?] at h
  | .leaf _ _, 0, _, h => by simp [Items.nodeAt?] at h
  | .node n _, 0, m, h => by simp [Items.nodeAt?, Node.at?] at h; subst h; rfl
  | .node n s, i + 1, m, h => at_of_nodeAt s i (by simpa [Items.nodeAt?] using h)
  | .leaf n s, i + 1, m, h => at_of_nodeAt s i (by simpa [Items.nodeAt?] using h)

mutual
theorem node_at_append {i : Nat} {m : Node} : ∀ (p : List Nat) (n : Node), n.at? (p ++ [i]) = some m →
    ∃ q, n.at? p = some q ∧ q.items.at? i = some (.node m .nil)
  | [], .mk h items, e => ⟨.mk h items, by simp [Node.at?], at_of_nodeAt items i (by simpa [Node.at?] using e)⟩
  | j :: p, .mk h items, e => by
    obtain ⟨q, h1, h2⟩ := items_at_append p j items (by simpa [Node.at?] using e)
    exact ⟨q, by simpa [Node.at?] using h1, h2⟩
  termination_by p n => (sizeOf n, 0)
theorem items_at_append {i : Nat} {m : Node} : ∀ (p : List Nat) (j : Nat) (l : Items), l.nodeAt? j (p ++ [i]) = some m →
    ∃ q, l.nodeAt? j p = some q ∧ q.items.at? i = some (.node m .nil)
  | p, _, .nil, e => by simp [Items.nodeAt?] at e
  | p, 0, .leaf _ _, e => by simp [Items.nodeAt?] at e
  | p, 0, .node n _, e => by
    obtain ⟨q, h1, h2⟩ := node_at_append p n (by simpa [Items.nodeAt?] using e)
    exact ⟨q, by simpa [Items.nodeAt?] using h1, h2⟩
  | p, j + 1, .node n s, e => by
    obtain ⟨q, h1, h2⟩ := items_at_append p j s (by simpa [Items.nodeAt?] using e)
    exact ⟨q, by simpa [Items.nodeAt?] using h1, h2⟩
  | p, j + 1, .leaf n s, e => by
    obtain ⟨q, h1, h2⟩ := items_at_append p j s (by simpa [Items.nodeAt?] using e)
    exact ⟨q, by simpa [Items.nodeAt?] using h1, h2⟩
  termination_by p j l => (sizeOf l, 0)
end

mutual
/-- A call leaves what is not below its node in its place. -/
theorem node_keep {f s} : ∀ (pa pb : List Nat) (n : Node) {s' n' out}, editNode f s n pa = some (s', n', out) → pa.isPrefixOf pb = false →
    (n.at? pb).isSome → (n'.at? pb).isSome
  | [], pb, n, s', n', out, _, hp, _ => by simp at hp
  | i :: pa, [], .mk h items, s', n', out, e, hp, hb => by simp [Node.at?]
  | i :: pa, j :: pb, .mk h items, s', n', out, e, hp, hb => by
    simp only [editNode, Option.bind_eq_bind] at e
    obtain ⟨⟨s1, l1, o1⟩, e1, e2⟩ := Option.bind_eq_some_iff.mp e
    simp only [Option.some.injEq, Prod.mk.injEq] at e2
    obtain ⟨_, rfl, _⟩ := e2
    have := items_keep i j pa pb items e1 hp (by simpa [Node.at?] using hb)
    simpa [Node.at?] using this
  termination_by pa pb n => (sizeOf n, 0)
theorem items_keep {f s} : ∀ (i j : Nat) (pa pb : List Nat) (l : Items) {s' l' out}, editItems f s l i pa = some (s', l', out) → (i :: pa).isPrefixOf (j :: pb) = false →
    (l.nodeAt? j pb).isSome → (l'.nodeAt? j pb).isSome
  | i, j, pa, pb, .nil, s', l', out, e, hp, hb => by simp [editItems] at e
  | 0, j, pa, pb, .leaf _ _, s', l', out, e, hp, hb => by simp [editItems] at e
  | 0, j, pa, pb, .node n next, s', l', out, e, hp, hb => by
    simp only [editItems, Option.bind_eq_bind] at e
    obtain ⟨⟨s1, n1, o1⟩, e1, e2⟩ := Option.bind_eq_some_iff.mp e
    simp only [Option.some.injEq, Prod.mk.injEq] at e2
    obtain ⟨_, rfl, _⟩ := e2
    cases j with
    | zero =>
      have := node_keep pa pb n e1 (by simpa using hp) (by simpa [Items.nodeAt?] using hb)
      simpa [Items.nodeAt?] using this
    | succ j => simpa [Items.nodeAt?] using hb
  | i + 1, j, pa, pb, .node n next, s', l', out, e, hp, hb => by
    simp only [editItems, Option.bind_eq_bind] at e
    obtain ⟨⟨s1, n1, o1⟩, e1, e2⟩ := Option.bind_eq_some_iff.mp e
    simp only [Option.some.injEq, Prod.mk.injEq] at e2
    obtain ⟨_, rfl, _⟩ := e2
    cases j with
    | zero => simpa [Items.nodeAt?] using hb
    | succ j =>
      have := items_keep i j pa pb next e1 (by simpa [List.isPrefixOf] using hp) (by simpa [Items.nodeAt?] using hb)
      simpa [Items.nodeAt?] using this
  | i + 1, j, pa, pb, .leaf n next, s', l', out, e, hp, hb => by
    simp only [editItems, Option.bind_eq_bind] at e
    obtain ⟨⟨s1, n1, o1⟩, e1, e2⟩ := Option.bind_eq_some_iff.mp e
    simp only [Option.some.injEq, Prod.mk.injEq] at e2
    obtain ⟨_, rfl, _⟩ := e2
    cases j with
    | zero => simp [Items.nodeAt?] at hb
    | succ j =>
      have := items_keep i j pa pb next e1 (by simpa [List.isPrefixOf] using hp) (by simpa [Items.nodeAt?] using hb)
      simpa [Items.nodeAt?] using this
  termination_by i j pa pb l => (sizeOf l, 0)
end

theorem at_of_length : ∀ (l : Items) (i : Nat), i < Spec.Items.length l → ∃ x, l.at? i = some x
  | .nil, i, h => by simp [Spec.Items.length] at h
  | .node n s, 0, _ => ⟨_, rfl⟩
  | .leaf n s, 0, _ => ⟨_, rfl⟩
  | .node n s, i + 1, h => at_of_length s i (by simpa [Spec.Items.length] using h)
  | .leaf n s, i + 1, h => at_of_length s i (by simpa [Spec.Items.length] using h)

theorem hasNode_some {w l} (h : hasNode w l = true) : ∃ m, w.node l = some m := Option.isSome_iff_exists.mp h

/-- A path that leads somewhere is a path that leads there from the parent. -/
theorem node_parent {w : World} {t : Where} {path p : List Nat} {i : Nat} {m : Node} (hs : World.splitPath path = some (p, i)) (hm : w.node ⟨t, path⟩ = some m) :
    ∃ q, w.node ⟨t, p⟩ = some q ∧ q.items.at? i = some (.node m .nil) := by
  have hpath : path = p ++ [i] := by
    simp only [World.splitPath] at hs
    obtain ⟨j, hj, hk⟩ := Option.map_eq_some_iff.mp hs
    simp only [Prod.mk.injEq] at hk
    obtain ⟨rfl, rfl⟩ := hk
    have hne : path ≠ [] := by rintro rfl; simp at hj
    rw [List.getLast?_eq_some_getLast hne] at hj
    simp only [Option.some.injEq] at hj
    rw [← hj, List.dropLast_concat_getLast]
  subst hpath
  simp only [World.node] at hm ⊢
  obtain ⟨n, ht, hm⟩ := Option.bind_eq_some_iff.mp hm
  obtain ⟨q, h1, h2⟩ := node_at_append p n hm
  exact ⟨q, by simp [ht, h1], h2⟩

theorem splitPath_none {p : List Nat} (h : World.splitPath p = none) : p = [] := by
  simp only [World.splitPath, Option.map_eq_none_iff] at h
  exact List.getLast?_eq_none_iff.mp h

theorem splitPath_some {p : List Nat} {q i} (h : World.splitPath p = some (q, i)) : p ≠ [] := by
  rintro rfl; simp [World.splitPath] at h

theorem node_nil {w : World} {t : Where} : w.node ⟨t, []⟩ = w.tree t := by
  simp only [World.node]
  cases w.tree t <;> simp [Node.at?]

theorem node_put_other {w : World} {t y} {l : Loc} (h : l.tree ≠ t) : (w.putTree t y).node l = w.node l := by
  simp only [World.node, tree_put_other (Ne.symm h)]

theorem mayGo_some {w k l} (h : mayGo w k l = true) : ∃ n, w.tree (.loose k) = some n ∧ l.tree ≠ .loose k := by
  simp only [mayGo, Bool.and_eq_true, bne_iff_ne] at h
  obtain ⟨m, hm⟩ := hasNode_some h.1
  rw [node_nil] at hm
  exact ⟨m, hm, h.2⟩

theorem hasDoc_some {w d} (h : hasDoc w d = true) : ∃ c, w.docs[d]? = some (some c) := by
  obtain ⟨c, hc⟩ := Option.isSome_iff_exists.mp h
  cases hq : w.docs[d]? with
  | none => rw [hq] at hc; simp at hc
  | some o => rw [hq] at hc; simp at hc; subst hc; exact ⟨c, rfl⟩

theorem WF.of_perm {w X Y} (h : WF w X) (hp : X.Perm Y) : WF w Y := ⟨h.st.of_perm (hp.append_left _), h.docs, h.loose, h.pools, h.nodup⟩

/-- A call on a node that takes nothing from elsewhere. -/
theorem WF.call {w l f pre} (h : WF w []) (hf : Works w.store.pools (· = .nil) f pre []) (hn : ∃ m, w.node l = some m ∧ pre m) :
    ∃ w', w.edit' l f = some w' ∧ WF w' [] := WF.edit' (I := []) (X := []) h hf hn

/-- A node put into another. -/
theorem WF.move {w l k f pre n} (h : WF w []) (hk : w.tree (.loose k) = some n) (hl : l.tree ≠ .loose k)
    (hf : okNode w.store.pools n → Works w.store.pools (· = .nil) f pre (nodeB n)) (hn : ∃ m, w.node l = some m ∧ pre m) :
    ∃ w', (w.putTree (.loose k) none).edit' l f = some w' ∧ WF w' [] := by
  refine WF.edit' (pre := pre) (I := nodeB n) (X := []) (h.take hk) ?_ ?_
  · rw [putTree_store]; exact hf (h.tree hk)
  · rw [node_put_other hl]; exact hn

/-- A new document. -/
theorem WF.newDoc {w v e} (h : WF w []) {s c} (hs : newDoc w.store w.docs.length v e = (s, c)) :
    w.docs.length ∉ w.store.pools ∧ okFix c ∧ c.root = none ∧ c.pis = [] ∧ St (w.docs.length :: w.store.pools) s (docFixB c ++ worldB w) := by
  have hd : w.docs.length ∉ w.store.pools := by
    intro hm
    obtain ⟨c, hc⟩ := (h.pools _).mp hm
    simp at hc
  obtain ⟨h1, h2, h3, h4⟩ := newDoc_ok (d := w.docs.length) (v := v) (e := e) h.st
  rw [hs] at h1 h2 h3 h4
  exact ⟨hd, h1, h2, h3, h4.of_perm (by perm)⟩

theorem WF.addDoc {w s c} (h : WF w []) (hc : okFix c) (hd : w.docs.length ∉ w.store.pools) (hr : okRoot (w.docs.length :: w.store.pools) c.root)
    (hs : St (w.docs.length :: w.store.pools) s (docFixB c ++ rootB c.root ++ worldB w)) :
    WF { w with store := s, docs := w.docs ++ [some c] } [] := by
  have hp := hs.pools
  have hat : ∀ d, (w.docs ++ [some c])[d]? = if d = w.docs.length then some (some c) else w.docs[d]? := by
    intro d
    rw [List.getElem?_append]
    split
    · rw [if_neg (by omega)]
    · by_cases hd : d = w.docs.length
      · simp [hd]
      · rw [if_neg hd, List.getElem?_eq_none (by simp; omega), List.getElem?_eq_none (by omega)]
  refine ⟨?_, ?_, ?_, ?_, ?_⟩
  · show St s.pools s _
    rw [hp]
    refine hs.of_perm ?_
    simp only [worldB, List.flatMap_append, List.flatMap_cons, List.flatMap_nil, docB]; perm
  · intro d c' hc'
    show _ ∧ okRoot s.pools _
    rw [hp]
    simp only at hc'
    rw [hat] at hc'
    split at hc'
    · simp only [Option.some.injEq] at hc'; subst hc'; exact ⟨hc, hr⟩
    · obtain ⟨h1, h2⟩ := h.docs d c' hc'
      refine ⟨h1, ?_⟩
      cases hq : c'.root with
      | none => trivial
      | some n => rw [hq] at h2; exact okNode_mono h2 fun e _ he => by simp [he]
  · intro k n hn
    show okNode s.pools n
    rw [hp]
    exact okNode_mono (h.loose k n hn) fun e _ he => by simp [he]
  · intro d
    show d ∈ s.pools ↔ _
    rw [hp]
    simp only [hat, List.mem_cons, h.pools d]
    by_cases hd : d = w.docs.length
    · simp [hd]
    · simp [hd]
  · show s.pools.Nodup
    rw [hp]
    exact List.nodup_cons.mpr ⟨hd, h.nodup⟩

/-- A document is freed. -/
theorem WF.freeDoc {w d c} (h : WF w []) (hd : w.docs[d]? = some (some c)) (ha : alone w d = true) :
    ∃ s, freeDoc w.store d c = some s ∧ WF { w with store := s, docs := w.docs.set d none } [] := by
  obtain ⟨hc, hr⟩ := h.docs d c hd
  have hperm := set_flat (f := docB) w.docs d (some c) none hd
  obtain ⟨s, e, hs⟩ := freeDoc_ok (d := d) (L := (w.docs.set d none).flatMap docB ++ w.loose.flatMap rootB) hc hr (h.st.of_perm (by
    refine List.perm_iff_count.mpr fun a => ?_
    have := List.perm_iff_count.mp hperm a
    simp only [worldB, docB, List.count_append, List.count_nil] at *
    omega))
  simp only [alone, Bool.and_eq_true, List.all_eq_true] at ha
  obtain ⟨hal, had⟩ := ha
  have hmem : ∀ {e}, e ∈ w.store.pools → e ≠ d → e ∈ w.store.pools.erase d := fun he hne => (List.mem_erase_of_ne hne).mpr he
  have hp := hs.pools
  refine ⟨s, e, ⟨?_, ?_, ?_, ?_, ?_⟩⟩
  · show St s.pools s _
    rw [hp]
    exact hs.of_perm (by simp only [worldB]; perm)
  · intro e' c' hc'
    show _ ∧ okRoot s.pools _
    rw [hp]
    simp only [List.getElem?_set] at hc'
    by_cases hde : d = e'
    · subst hde; simp at hc'
    · rw [if_neg hde] at hc'
      obtain ⟨h1, h2⟩ := h.docs e' c' hc'
      refine ⟨h1, ?_⟩
      cases hq : c'.root with
      | none => trivial
      | some n =>
        rw [hq] at h2
        refine okNode_mono h2 fun x hx hxp => hmem hxp ?_
        rintro rfl
        have := had e' (by simp; exact (List.getElem?_eq_some_iff.mp hc').1)
        simp [World.tree, hc', hq, hx] at this
        exact hde this.symm
  · intro k n hn
    show okNode s.pools n
    rw [hp]
    refine okNode_mono (h.loose k n hn) fun x hx hxp => hmem hxp ?_
    rintro rfl
    have := hal (some n) (List.mem_of_getElem? hn)
    simp [hx] at this
  · intro x
    show x ∈ s.pools ↔ _
    rw [hp, h.nodup.mem_erase_iff, h.pools x]
    simp only [List.getElem?_set]
    by_cases hdx : d = x
    · subst hdx; simp
    · rw [if_neg hdx]
      exact ⟨fun h => h.2, fun h => ⟨fun hx => hdx hx.symm, h⟩⟩
  · show s.pools.Nodup
    rw [hp]; exact h.nodup.erase d

/-- Setting the root of a document that has none. -/
theorem WF.putRoot {w d n X} (h : WF w (nodeB n ++ X)) (hn : okNode w.store.pools n) (hd : ∃ c, w.docs[d]? = some (some c)) :
    ∃ s n', setDoc w.store d n = some (s, n') ∧ s.pools = w.store.pools ∧ WF ({ w with store := s }.putTree (.doc d) (some n')) (rootB (w.tree (.doc d)) ++ X) := by
  have hdp : d ∈ w.store.pools := (h.pools d).mpr hd
  obtain ⟨s, n', e, o, hs⟩ := setDoc_ok hdp hn (h.st.of_perm (L' := nodeB n ++ (worldB w ++ X)) (by perm))
  refine ⟨s, n', e, hs.pools, h.put hd o (hs.of_perm ?_)⟩
  have hp := worldB_put (y := some n') (t := .doc d) hd
  refine List.perm_iff_count.mpr fun a => ?_
  have := List.perm_iff_count.mp hp a
  simp only [rootB, List.count_append, List.count_nil] at *
  omega

/-- The record of a document changes. -/
theorem WF.setRec {w X X' d c c' s} (h : WF w X) (hd : w.docs[d]? = some (some c)) (hc : okFix c') (hr : okRoot w.store.pools c'.root)
    (hs : St w.store.pools s (worldB { w with docs := w.docs.set d (some c') } ++ X')) :
    WF { w with store := s, docs := w.docs.set d (some c') } X' := by
  have hp := hs.pools
  have hlt := (List.getElem?_eq_some_iff.mp hd).1
  refine ⟨?_, ?_, ?_, ?_, ?_⟩
  · show St s.pools s _; rw [hp]; exact hs
  · intro e x hx
    show _ ∧ okRoot s.pools _
    rw [hp]
    simp only [List.getElem?_set] at hx
    by_cases hde : d = e
    · subst hde
      simp [hlt] at hx; subst hx; exact ⟨hc, hr⟩
    · rw [if_neg hde] at hx; exact h.docs e x hx
  · intro k n hn; show okNode s.pools n; rw [hp]; exact h.loose k n hn
  · intro e
    show e ∈ s.pools ↔ _
    rw [hp, h.pools e]
    simp only [List.getElem?_set]
    by_cases hde : d = e
    · subst hde; rw [if_pos rfl, if_pos hlt, hd]; exact ⟨fun _ => ⟨_, rfl⟩, fun _ => ⟨_, rfl⟩⟩
    · rw [if_neg hde]
  · show s.pools.Nodup; rw [hp]; exact h.nodup

mutual
/-- A node below another: its flags tell the truth and its blocks are among those of the other. -/
theorem node_sub {P} : ∀ (p : List Nat) (n : Node) {m}, n.at? p = some m → okNode P n → okNode P m ∧ ∀ b ∈ nodeB m, b ∈ nodeB n
  | [], n, m, e, ho => by simp [Node.at?] at e; subst e; exact ⟨ho, fun b hb => hb⟩
  | i :: p, .mk h items, m, e, ho => by
    obtain ⟨h1, h2⟩ := items_sub p i items (by simpa [Node.at?] using e) ho.2
    exact ⟨h1, fun b hb => by simp [nodeB, h2 b hb]⟩
  termination_by p n => (sizeOf n, 0)
theorem items_sub {P} : ∀ (p : List Nat) (i : Nat) (l : Items) {m}, l.nodeAt? i p = some m → okItems P l → okNode P m ∧ ∀ b ∈ nodeB m, b ∈ itemsB l
  | p, _, .nil, m, e, _ => by simp [Items.nodeAt?] at e
  | p, 0, .leaf _ _, m, e, _ => by simp [Items.nodeAt?] at e
  | p, 0, .node n s, m, e, ho => by
    obtain ⟨h1, h2⟩ := node_sub p n (by simpa [Items.nodeAt?] using e) ho.1
    exact ⟨h1, fun b hb => by simp [itemsB, h2 b hb]⟩
  | p, i + 1, .node n s, m, e, ho => by
    obtain ⟨h1, h2⟩ := items_sub p i s (by simpa [Items.nodeAt?] using e) ho.2.2
    exact ⟨h1, fun b hb => by simp [itemsB, h2 b hb]⟩
  | p, i + 1, .leaf n s, m, e, ho => by
    obtain ⟨h1, h2⟩ := items_sub p i s (by simpa [Items.nodeAt?] using e) ho.2
    exact ⟨h1, fun b hb => by simp [itemsB, h2 b hb]⟩
  termination_by p i l => (sizeOf l, 0)
end

theorem mem_worldB {w : World} {t n} (h : w.tree t = some n) : ∀ b ∈ nodeB n, b ∈ worldB w := by
  intro b hb
  have := (worldB_put (y := none) (slot_of_tree h)).mem_iff (a := b)
  rw [h] at this
  simp only [rootB, List.nil_append, List.mem_append] at this
  exact this.mp (Or.inl hb)

theorem step_docCreate {esc w v e} (h : WF w []) (hf : fits w (.docCreate v e) = true) : ∃ w', step esc w (.docCreate v e) = some w' ∧ WF w' [] := by
  cases hq : newDoc w.store w.docs.length v e with
  | mk s c =>
    obtain ⟨hd, hc, hr, hp, hs⟩ := h.newDoc hq
    refine ⟨_, by simp only [step, hq], h.addDoc hc hd (by rw [hr]; trivial) (hs.of_perm (by rw [hr]; simp only [rootB]; perm))⟩

theorem step_parse {esc w v e pis root} (h : WF w []) (hf : fits w (.parse v e pis root) = true) : ∃ w', step esc w (.parse v e pis root) = some w' ∧ WF w' [] := by
  cases hq : newDoc w.store w.docs.length v e with
  | mk s c =>
    obtain ⟨hd, hc, hr, hp, hs⟩ := h.newDoc hq
    cases hqp : parsePis s pis with
    | mk s1 ps =>
      obtain ⟨o1, h1⟩ := parsePis_ok pis hs
      rw [hqp] at o1 h1
      obtain ⟨s2, n, e2, o2, _, h2⟩ := parseNode_ok (d := w.docs.length) (by simp) root h1
      obtain ⟨s3, e3, h3⟩ := freeOpt_ok (o := c.parentNode) (okOpt_mono hc.parentNode) (h2.of_perm (L' := optB c.parentNode ++ (docFixB { c with pis := ps, root := some n, parentNode := none } ++ nodeB n ++ worldB w)) (by
        simp only [docFixB, hp, pisB, optB]; perm))
      refine ⟨_, by simp only [step, hq, hqp, e2, e3, Option.bind_eq_bind, Option.bind_some], h.addDoc (c := { c with pis := ps, root := some n, parentNode := none }) ?_ hd o2 (h3.of_perm (by simp only [rootB]; perm))⟩
      exact ⟨hc.self, trivial, hc.piTargets, hc.xmlPreserve, hc.itemFactory, hc.nodeFactory, hc.contentFactory, hc.attrFactory, hc.strFactory, fun p hp => okPi_mono (o1 p hp), hc.version, hc.encoding⟩

theorem step_docPi {esc w d content} (h : WF w []) (hf : fits w (.docPi d content) = true) : ∃ w', step esc w (.docPi d content) = some w' ∧ WF w' [] := by
  obtain ⟨c, hc⟩ := hasDoc_some hf
  obtain ⟨hx, hr⟩ := h.docs d c hc
  have hperm := set_flat (f := docB) w.docs d (some c) (some { c with pis := c.pis ++ [(newPi w.store content).2] }) hc
  have t0 : w.store.touch c.self = some () := h.st.touch (okRef_false hx.self) (by
    intro b hb
    have : b ∈ docB (some c) := by simp [docB, docFixB, hb]
    have hm : b ∈ w.docs.flatMap docB := List.mem_flatMap.mpr ⟨some c, List.mem_of_getElem? hc, this⟩
    simp [worldB, hm])
  obtain ⟨o1, h1⟩ := newPi_ok (c := content) h.st
  refine ⟨_, by simp only [step, hc, Option.join_some, t0, Option.bind_eq_bind, Option.bind_some], h.setRec (c := c) (c' := { c with pis := c.pis ++ [(newPi w.store content).2] }) (X' := []) hc ?_ hr (h1.of_perm ?_)⟩
  · refine ⟨hx.self, hx.parentNode, hx.piTargets, hx.xmlPreserve, hx.itemFactory, hx.nodeFactory, hx.contentFactory, hx.attrFactory, hx.strFactory, ?_, hx.version, hx.encoding⟩
    intro p hp
    rcases List.mem_append.mp hp with hp | hp
    · exact hx.pis p hp
    · simp at hp; subst hp; exact okPi_mono o1
  · have hpis : ∀ (l : List PiRec) q, pisB (l ++ [q]) = pisB l ++ piB q := by
      intro l q
      induction l with
      | nil => simp [pisB]
      | cons x l ih => simp [pisB, ih]
    refine List.perm_iff_count.mpr fun a => ?_
    have := List.perm_iff_count.mp hperm a
    simp only [worldB, docB, docFixB, hpis, List.count_append, List.count_nil] at *
    omega

theorem step_setRoot {esc w d k} (h : WF w []) (hf : fits w (.setRoot d k) = true) : ∃ w', step esc w (.setRoot d k) = some w' ∧ WF w' [] := by
  simp only [fits, Bool.and_eq_true] at hf
  obtain ⟨c, hc⟩ := hasDoc_some hf.1
  have hk : ∃ n, w.tree (.loose k) = some n := by
    have := hf.2
    simp only [isNew] at this
    cases hq : w.tree (.loose k) with
    | none => rw [hq] at this; simp at this
    | some n => exact ⟨n, rfl⟩
  obtain ⟨n, hn⟩ := hk
  have h1 := h.take hn
  have hst : (w.putTree (.loose k) none).store = w.store := putTree_store
  obtain ⟨s, n', e, hsp, h2⟩ := h1.putRoot (d := d) (by rw [hst]; exact h.tree hn) ⟨c, hc⟩
  have htree : (w.putTree (.loose k) none).tree (.doc d) = w.tree (.doc d) := rfl
  rw [htree] at h2
  cases hq : w.tree (.doc d) with
  | none =>
    rw [hq] at h2
    exact ⟨_, by simp [step, World.setRoot, hn, hq, e], h2⟩
  | some o =>
    rw [hq] at h2
    refine ⟨_, by simp only [step, World.setRoot, hn, hq, e, Option.bind_eq_bind, Option.bind_some], h2.addLoose ?_⟩
    rw [putTree_store]
    show okNode s.pools o
    rw [hsp, hst]; exact h.tree hq

theorem step_docFree {esc w d} (h : WF w []) (hf : fits w (.docFree d) = true) : ∃ w', step esc w (.docFree d) = some w' ∧ WF w' [] := by
  simp only [fits, Bool.and_eq_true] at hf
  obtain ⟨c, hc⟩ := hasDoc_some hf.1
  obtain ⟨s, e, hs⟩ := h.freeDoc hc hf.2
  exact ⟨_, by simp [step, hc, e], hs⟩

theorem step_create {esc w} (h : WF w []) (hf : fits w (.create) = true) : ∃ w', step esc w (.create) = some w' ∧ WF w' [] := by
  obtain ⟨h1, o1⟩ := h.st.alloc
  obtain ⟨h2, o2⟩ := h1.alloc
  refine ⟨_, rfl, WF.addLoose (h.withStore (s := (create w.store).1) (X' := nodeB (create w.store).2 ++ []) (h2.of_perm ?_)) ⟨⟨okRef_false o1, okRef_false o2, by intro x hx; simp at hx, trivial, trivial⟩, trivial⟩⟩
  simp only [create, nodeB, headB, attrsB, attrListB, annotB, holderB, itemsB]; perm

theorem step_setName {esc w l} (h : WF w []) (hf : fits w (.setName l) = true) : ∃ w', step esc w (.setName l) = some w' ∧ WF w' [] := by
  obtain ⟨m, hm⟩ := hasNode_some hf
  exact h.call setName_works ⟨m, hm, trivial⟩

theorem step_setNameRef {esc w l} (h : WF w []) (hf : fits w (.setNameRef l) = true) : ∃ w', step esc w (.setNameRef l) = some w' ∧ WF w' [] := by
  simp only [fits, ownName] at hf
  cases hq : w.node l with
  | none => rw [hq] at hf; simp at hf
  | some m =>
    refine h.call setNameRef_works ⟨m, hq, ?_⟩
    rw [hq] at hf
    simp only [Option.any_some] at hf
    cases hn : m.head.name with
    | own b => exact ⟨b, rfl⟩
    | pool d => rw [hn] at hf; simp at hf

theorem step_setAttr {esc w l key} (h : WF w []) (hf : fits w (.setAttr l key) = true) : ∃ w', step esc w (.setAttr l key) = some w' ∧ WF w' [] := by
  obtain ⟨m, hm⟩ := hasNode_some hf
  exact h.call (onAttrs_works setAttr_works) ⟨m, hm, trivial⟩

theorem step_setAttrRef {esc w l key} (h : WF w []) (hf : fits w (.setAttrRef l key) = true) : ∃ w', step esc w (.setAttrRef l key) = some w' ∧ WF w' [] := by
  obtain ⟨m, hm⟩ := hasNode_some hf
  exact h.call (onAttrs_works setAttrRef_works) ⟨m, hm, trivial⟩

theorem step_removeAttr {esc w l key} (h : WF w []) (hf : fits w (.removeAttr l key) = true) : ∃ w', step esc w (.removeAttr l key) = some w' ∧ WF w' [] := by
  obtain ⟨m, hm⟩ := hasNode_some hf
  exact h.call (onAttrs_works removeAttr_works) ⟨m, hm, trivial⟩

theorem step_annotate {esc w l key blocks} (h : WF w []) (hf : fits w (.annotate l key blocks) = true) : ∃ w', step esc w (.annotate l key blocks) = some w' ∧ WF w' [] := by
  obtain ⟨m, hm⟩ := hasNode_some hf
  exact h.call annotate_works ⟨m, hm, trivial⟩

theorem step_setText {esc w l k} (h : WF w []) (hf : fits w (.setText l k) = true) : ∃ w', step esc w (.setText l k) = some w' ∧ WF w' [] := by
  obtain ⟨m, hm⟩ := hasNode_some hf
  exact h.call setText_works ⟨m, hm, trivial⟩

theorem step_addPi {esc w l content} (h : WF w []) (hf : fits w (.addPi l content) = true) : ∃ w', step esc w (.addPi l content) = some w' ∧ WF w' [] := by
  obtain ⟨m, hm⟩ := hasNode_some hf
  exact h.call addPi_works ⟨m, hm, trivial⟩

theorem step_setChild {esc w l k} (h : WF w []) (hf : fits w (.setChild l k) = true) : ∃ w', step esc w (.setChild l k) = some w' ∧ WF w' [] := by
  simp only [fits, Bool.and_eq_true] at hf
  obtain ⟨m, hm⟩ := hasNode_some hf.1
  obtain ⟨n, hn, hl⟩ := mayGo_some hf.2
  obtain ⟨w', e, hw⟩ := h.move hn hl (fun ho => setChild_works ho) ⟨m, hm, trivial⟩
  exact ⟨w', by simp [step, hn, e], hw⟩

theorem step_setAfter {esc w l i k} (h : WF w []) (hf : fits w (.setAfter l i k) = true) : ∃ w', step esc w (.setAfter l i k) = some w' ∧ WF w' [] := by
  simp only [fits, Bool.and_eq_true] at hf
  obtain ⟨m, hm⟩ := hasNode_some hf.1.1
  obtain ⟨n, hn, hl⟩ := mayGo_some hf.2
  obtain ⟨w', e, hw⟩ := h.move hn hl (fun ho => setAfter_works (i := i) ho) ⟨m, hm, trivial⟩
  exact ⟨w', by simp [step, hn, e], hw⟩

theorem step_removeNode {esc w l dealloc} (h : WF w []) (hf : fits w (.removeNode l dealloc) = true) : ∃ w', step esc w (.removeNode l dealloc) = some w' ∧ WF w' [] := by
  simp only [fits, Bool.and_eq_true] at hf
  obtain ⟨m, hm⟩ := hasNode_some hf.1
  obtain ⟨t, path⟩ := l
  cases hs : World.splitPath path with
  | some x =>
    obtain ⟨p, i⟩ := x
    obtain ⟨q, hq, hx⟩ := node_parent hs hm
    obtain ⟨w', out, e, ⟨oo, os⟩, hw, hpools, _⟩ := WF.edit (I := []) (X := []) h (takeItem_works (i := i)) ⟨q, hq, _, hx⟩
    obtain ⟨w2, e2, hw2⟩ := hw.drop (b := dealloc) (by rw [hpools]; exact oo) os
    exact ⟨w2, by simp [step, World.removeNode, hs, e, e2], hw2⟩
  | none =>
    have := splitPath_none hs
    subst this
    cases t with
    | loose k => simp at hf
    | doc d =>
      rw [node_nil] at hm
      have hok := h.tree hm
      have h1 := h.take hm
      have ht : w.store.touch m.head.self = some () := by
        have := h1.st
        cases m with
        | mk mh mi =>
          rw [putTree_store] at this
          exact this.touch hok.1.self (by intro b hb; have hb' : b ∈ refB mh.self := hb; simp [nodeB, headB, hb'])
      obtain ⟨w2, e2, hw2⟩ := WF.drop (X := []) (out := .node m .nil) (b := dealloc) (h1.of_perm (by simp only [itemsB]; perm)) ⟨by rw [putTree_store]; exact hok, trivial⟩ rfl
      exact ⟨w2, by simp [step, World.removeNode, hs, hm, ht, e2], hw2⟩

theorem step_removeItem {esc w l i} (h : WF w []) (hf : fits w (.removeItem l i) = true) : ∃ w', step esc w (.removeItem l i) = some w' ∧ WF w' [] := by
  simp only [fits, Bool.and_eq_true] at hf
  obtain ⟨m, hm⟩ := hasNode_some hf.1.1
  have hx : ∃ x, m.items.at? i = some x := by
    apply at_of_length
    have := hf.1.2
    simpa [itemsOf, hm] using this
  obtain ⟨w', out, e, ⟨oo, os⟩, hw, hpools, _⟩ := WF.edit (I := []) (X := []) h (takeItem_works (i := i)) ⟨m, hm, hx⟩
  obtain ⟨w2, e2, hw2⟩ := hw.drop (b := true) (by rw [hpools]; exact oo) os
  exact ⟨w2, by simp [step, e, e2], hw2⟩

theorem step_replaceNode {esc w l k dealloc} (h : WF w []) (hf : fits w (.replaceNode l k dealloc) = true) : ∃ w', step esc w (.replaceNode l k dealloc) = some w' ∧ WF w' [] := by
  simp only [fits, Bool.and_eq_true] at hf
  obtain ⟨m, hm⟩ := hasNode_some hf.1.1
  obtain ⟨n, hn, hl⟩ := mayGo_some hf.1.2
  have hno := hf.2
  obtain ⟨t, path⟩ := l
  have hst : (w.putTree (.loose k) none).store = w.store := putTree_store
  cases hs : World.splitPath path with
  | some x =>
    obtain ⟨p, i⟩ := x
    obtain ⟨q, hq, hx⟩ := node_parent hs hm
    rw [if_neg (splitPath_some hs)] at hno
    have hni : holderB n.head.holder = [] := by
      simp only [noItem, hn, Option.any_some] at hno
      cases hh : n.head.holder with
      | none => rfl
      | some it =>
        rw [hh] at hno
        simp only [Option.all_some] at hno
        cases hr : it.ref with
        | own b => rw [hr] at hno; simp at hno
        | pool d => simp [holderB, hr, refB]
    obtain ⟨w', out, e, ⟨oo, os⟩, hw, hpools, _⟩ := WF.edit (I := nodeB n) (X := []) (l := ⟨t, p⟩) (h.take hn) (swapItem_works (i := i) (by rw [hst]; exact h.tree hn) hni)
      ⟨q, by rw [node_put_other (by exact hl)]; exact hq, m, .nil, hx⟩
    obtain ⟨w2, e2, hw2⟩ := hw.drop (b := dealloc) (by rw [hpools]; exact oo) os
    exact ⟨w2, by simp [step, World.replaceNode, hs, hn, e, e2], hw2⟩
  | none =>
    have := splitPath_none hs
    subst this
    cases t with
    | loose j => simp at hno
    | doc d =>
      rw [node_nil] at hm
      have hok := h.tree hm
      obtain ⟨c, hc⟩ := slot_of_tree hm
      have h1 := h.take hn
      obtain ⟨s, n', e, hsp, h2⟩ := h1.putRoot (d := d) (by rw [hst]; exact h.tree hn) ⟨c, hc⟩
      have htree : (w.putTree (.loose k) none).tree (.doc d) = w.tree (.doc d) := rfl
      rw [htree, hm] at h2
      have ht : w.store.touch m.head.self = some () := by
        cases m with
        | mk mh mi => exact h.st.touch hok.1.self (by intro b hb; have hb' : b ∈ refB mh.self := hb; simp [mem_worldB hm b (by simp [nodeB, headB, hb'])])
      obtain ⟨w2, e2, hw2⟩ := WF.drop (X := []) (out := .node m .nil) (b := dealloc) (h2.of_perm (by simp only [itemsB, rootB]; perm)) ⟨by rw [putTree_store]; show okNode s.pools m; rw [hsp, hst]; exact hok, trivial⟩ rfl
      exact ⟨w2, by simp only [step, World.replaceNode, hs, hn, hm, ht, e, e2, Option.bind_eq_bind, Option.bind_some], hw2⟩

theorem step_transfer {esc w a b} (h : WF w []) (hf : fits w (.transfer a b) = true) : ∃ w', step esc w (.transfer a b) = some w' ∧ WF w' [] := by
  simp only [fits, Bool.and_eq_true, Bool.not_eq_true'] at hf
  obtain ⟨ma, hma⟩ := hasNode_some hf.1.1
  obtain ⟨mb, hmb⟩ := hasNode_some hf.1.2
  have hnb := hf.2
  obtain ⟨w1, out, e1, oo, h1, hpools, hother, n, s, n', ht, he, ht'⟩ := WF.edit (I := []) (X := []) (l := a) h takeAll_works ⟨ma, hma, trivial⟩
  have hb : ∃ m, w1.node b = some m ∧ True := by
    by_cases htree : b.tree = a.tree
    · simp only [World.node, htree, ht', ht, Option.bind_some] at hmb ⊢
      have hp : a.path.isPrefixOf b.path = false := by
        simpa [below, htree] using hnb
      have := node_keep a.path b.path n he hp (by simp [hmb])
      obtain ⟨m, hm⟩ := Option.isSome_iff_exists.mp this
      exact ⟨m, hm, trivial⟩
    · refine ⟨mb, ?_, trivial⟩
      simp only [World.node, hother _ htree]; exact hmb
  obtain ⟨w2, e2, h2⟩ := WF.edit' h1 (f := giveAll out) (giveAll_works (by rw [hpools]; exact oo)) hb
  exact ⟨w2, by simp only [step, e1, e2, Option.bind_eq_bind, Option.bind_some], h2⟩

theorem step_transferAfter {esc w a b i} (h : WF w []) (hf : fits w (.transferAfter a b i) = true) : ∃ w', step esc w (.transferAfter a b i) = some w' ∧ WF w' [] := by
  simp only [fits, Bool.and_eq_true, Bool.not_eq_true'] at hf
  obtain ⟨ma, hma⟩ := hasNode_some hf.1.1.1
  obtain ⟨mb, hmb⟩ := hasNode_some hf.1.1.2
  have hnb := hf.1.2
  obtain ⟨w1, out, e1, oo, h1, hpools, hother, n, s, n', ht, he, ht'⟩ := WF.edit (I := []) (X := []) (l := a) h takeAll_works ⟨ma, hma, trivial⟩
  have hb : ∃ m, w1.node b = some m ∧ True := by
    by_cases htree : b.tree = a.tree
    · simp only [World.node, htree, ht', ht, Option.bind_some] at hmb ⊢
      have hp : a.path.isPrefixOf b.path = false := by
        simpa [below, htree] using hnb
      have := node_keep a.path b.path n he hp (by simp [hmb])
      obtain ⟨m, hm⟩ := Option.isSome_iff_exists.mp this
      exact ⟨m, hm, trivial⟩
    · refine ⟨mb, ?_, trivial⟩
      simp only [World.node, hother _ htree]; exact hmb
  obtain ⟨w2, e2, h2⟩ := WF.edit' h1 (f := giveAllAfter i out) (giveAllAfter_works (by rw [hpools]; exact oo)) hb
  exact ⟨w2, by simp only [step, e1, e2, Option.bind_eq_bind, Option.bind_some], h2⟩

theorem step_setIsEmpty {esc w l} (h : WF w []) (hf : fits w (.setIsEmpty l) = true) : ∃ w', step esc w (.setIsEmpty l) = some w' ∧ WF w' [] := by
  simp only [fits, Bool.and_eq_true] at hf
  obtain ⟨m, hm⟩ := hasNode_some hf.1
  exact h.call setIsEmpty_works ⟨m, hm, trivial⟩

theorem step_copy {esc w l attrs childs} (h : WF w []) (hf : fits w (.copy l attrs childs) = true) : ∃ w', step esc w (.copy l attrs childs) = some w' ∧ WF w' [] := by
  obtain ⟨m, hm⟩ := hasNode_some hf
  have hm' := hm
  simp only [World.node] at hm'
  obtain ⟨n, ht, hat⟩ := Option.bind_eq_some_iff.mp hm'
  obtain ⟨om, hsub⟩ := node_sub l.path n hat (h.tree ht)
  obtain ⟨s1, c, e1, o1, _, h1⟩ := copyNode_ok m attrs childs om (fun b hb => by simp [mem_worldB ht b (hsub b hb)]) h.st
  have hw := h.withStore (s := s1) (X' := nodeB c ++ []) (h1.of_perm (by perm))
  refine ⟨_, by simp only [step, hm, e1, Option.bind_eq_bind, Option.bind_some], hw.addLoose ?_⟩
  show okNode s1.pools c
  rw [h1.pools]; exact o1

theorem step_nodeFree {esc w k} (h : WF w []) (hf : fits w (.nodeFree k) = true) : ∃ w', step esc w (.nodeFree k) = some w' ∧ WF w' [] := by
  obtain ⟨m, hm⟩ := hasNode_some hf
  rw [node_nil] at hm
  have hok := h.tree hm
  obtain ⟨w2, e2, hw2⟩ := WF.drop (X := []) (out := .node m .nil) (b := true) ((h.take hm).of_perm (by simp only [itemsB]; perm)) ⟨by rw [putTree_store]; exact hok, trivial⟩ rfl
  exact ⟨w2, by simp [step, hm, e2], hw2⟩

theorem step_ok {esc w op} (h : WF w []) (hf : fits w op = true) : ∃ w', step esc w op = some w' ∧ WF w' [] := by
  cases op with
  | docCreate v e => exact step_docCreate h hf
  | parse v e pis root => exact step_parse h hf
  | docPi d content => exact step_docPi h hf
  | setRoot d k => exact step_setRoot h hf
  | docFree d => exact step_docFree h hf
  | create => exact step_create h hf
  | setName l => exact step_setName h hf
  | setNameRef l => exact step_setNameRef h hf
  | setAttr l key => exact step_setAttr h hf
  | setAttrRef l key => exact step_setAttrRef h hf
  | removeAttr l key => exact step_removeAttr h hf
  | annotate l key blocks => exact step_annotate h hf
  | setText l k => exact step_setText h hf
  | addPi l content => exact step_addPi h hf
  | setChild l k => exact step_setChild h hf
  | setAfter l i k => exact step_setAfter h hf
  | removeNode l dealloc => exact step_removeNode h hf
  | removeItem l i => exact step_removeItem h hf
  | replaceNode l k dealloc => exact step_replaceNode h hf
  | transfer a b => exact step_transfer h hf
  | transferAfter a b i => exact step_transferAfter h hf
  | setIsEmpty l => exact step_setIsEmpty h hf
  | copy l attrs childs => exact step_copy h hf
  | nodeFree k => exact step_nodeFree h hf

theorem WF.empty : WF World.empty [] :=
  ⟨⟨rfl, .refl _, .nil, by simp [World.empty]⟩, by simp [World.empty], by simp [World.empty], by simp [World.empty], .nil⟩

theorem run_ok {esc} : ∀ (ops : List Op) {w}, WF w [] → Fits esc w ops = true → ∃ w', run esc w ops = some w' ∧ WF w' []
  | [], w, h, _ => ⟨w, rfl, h⟩
  | op :: ops, w, h, hf => by
    simp only [Fits, Bool.and_eq_true] at hf
    obtain ⟨w1, e1, h1⟩ := step_ok (esc := esc) h hf.1
    have hf2 := hf.2
    rw [e1] at hf2
    obtain ⟨w2, e2, h2⟩ := run_ok ops h1 hf2
    exact ⟨w2, by simp [run, e1, e2], h2⟩

theorem run_append {esc} : ∀ (a b : List Op) {w}, run esc w (a ++ b) = (run esc w a).bind fun w' => run esc w' b
  | [], b, w => rfl
  | op :: a, b, w => by
    simp only [List.cons_append, run, Option.bind_eq_bind]
    cases step esc w op with
    | none => rfl
    | some w1 => simpa using run_append a b

theorem allFreed_blocks {w} (h : AllFreed w = true) : worldB w = [] := by
  simp only [AllFreed, Bool.and_eq_true, List.all_eq_true] at h
  simp only [worldB, List.append_eq_nil_iff, List.flatMap_eq_nil_iff]
  constructor
  · intro o ho
    have := h.1 o ho
    cases o with
    | none => rfl
    | some c => simp at this
  · intro o ho
    have := h.2 o ho
    cases o with
    | none => rfl
    | some c => simp at this

/-- Nodes in no document, freed one after the other. -/
theorem freeLoose_run {esc} : ∀ (ks : List Nat) {w}, WF w [] → ks.Nodup → (∀ k ∈ ks, (w.tree (.loose k)).isSome) →
    ∃ w', run esc w (ks.map .nodeFree) = some w' ∧ WF w' [] ∧ w'.docs = w.docs ∧ w'.loose.length = w.loose.length ∧
      ∀ k, w'.tree (.loose k) = if k ∈ ks then none else w.tree (.loose k)
  | [], w, h, _, _ => ⟨w, rfl, h, rfl, rfl, by simp⟩
  | k :: ks, w, h, hnd, hks => by
    obtain ⟨n, hn⟩ := Option.isSome_iff_exists.mp (hks k (by simp))
    obtain ⟨w1, e1, h1⟩ := step_nodeFree (esc := esc) (k := k) h (by simp [fits, hasNode, node_nil, hn])
    have hw1 : ∃ s, w1 = { w.putTree (.loose k) none with store := s } := by
      simp only [step, hn, Option.bind_eq_bind, Option.bind_some, World.drop, if_true] at e1
      obtain ⟨s, hs, e⟩ := Option.bind_eq_some_iff.mp e1
      simp only [Option.some.injEq] at e
      exact ⟨s, e.symm⟩
    obtain ⟨s, hs⟩ := hw1
    have ht : ∀ j, w1.tree (.loose j) = if j = k then none else w.tree (.loose j) := by
      intro j
      rw [hs]
      show (w.putTree (.loose k) none).tree (.loose j) = _
      by_cases hj : j = k
      · subst hj; rw [if_pos rfl, tree_put_self (slot_of_tree hn)]
      · rw [if_neg hj, tree_put_other (by simpa using fun h => hj h.symm)]
    obtain ⟨hk, hnd⟩ := List.nodup_cons.mp hnd
    obtain ⟨w2, e2, h2, hd2, hl2, ht2⟩ := freeLoose_run (esc := esc) ks h1 hnd (by
      intro j hj
      rw [ht, if_neg (by rintro rfl; exact hk hj)]
      exact hks j (by simp [hj]))
    refine ⟨w2, by simp [run, e1, e2], h2, ?_, ?_, ?_⟩
    · rw [hd2, hs]; rfl
    · rw [hl2, hs]; simp [World.putTree]
    · intro j
      rw [ht2, ht]
      by_cases hj : j = k <;> by_cases hjk : j ∈ ks <;> simp [hj, hjk]

/-- Documents, freed one after the other, when there are no nodes in no document. -/
theorem freeDocs_run {esc} : ∀ (ds : List Nat) {w}, WF w [] → ds.Nodup → (∀ d ∈ ds, hasDoc w d = true) → (∀ o ∈ w.loose, o = none) → Apart w = true →
    ∃ w', run esc w (ds.map .docFree) = some w' ∧ WF w' [] ∧ w'.loose = w.loose ∧ w'.docs.length = w.docs.length ∧
      ∀ d, w'.docs[d]?.join = if d ∈ ds then none else w.docs[d]?.join
  | [], w, h, _, _, _, _ => ⟨w, rfl, h, rfl, rfl, by simp⟩
  | d :: ds, w, h, hnd, hds, hl, ha => by
    obtain ⟨c, hc⟩ := hasDoc_some (hds d (by simp))
    have hlt := (List.getElem?_eq_some_iff.mp hc).1
    have ha' := ha
    simp only [Apart, List.all_eq_true, List.mem_range] at ha'
    have halone : alone w d = true := by
      simp only [alone, Bool.and_eq_true, List.all_eq_true]
      refine ⟨fun o ho => by rw [hl o ho]; rfl, fun e he => ha' e (by simpa using he) d hlt⟩
    obtain ⟨s, e1, h1⟩ := h.freeDoc hc halone
    have ht : ∀ e : Nat, (w.docs.set d none)[e]?.join = if e = d then none else w.docs[e]?.join := by
      intro e
      rw [List.getElem?_set]
      by_cases he : d = e
      · subst he; simp [hlt]
      · rw [if_neg he, if_neg (fun h => he h.symm)]
    obtain ⟨hd, hnd⟩ := List.nodup_cons.mp hnd
    obtain ⟨w2, e2, h2, hl2, hn2, ht2⟩ := freeDocs_run (esc := esc) ds h1 hnd (by
      intro e he
      simp only [hasDoc, ht]
      rw [if_neg (by rintro rfl; exact hd he)]
      exact hds e (by simp [he])) hl (by
      simp only [Apart, List.all_eq_true, List.mem_range, List.length_set]
      intro x hx y hy
      have := ha' x hx y hy
      simp only [World.tree, ht]
      by_cases hxd : x = d
      · simp [hxd]
      · rw [if_neg hxd]; exact this)
    refine ⟨w2, by simp [run, step, hc, e1, e2], h2, hl2, by rw [hn2]; simp, ?_⟩
    intro e
    rw [ht2, ht]
    by_cases he : e = d <;> by_cases hed : e ∈ ds <;> simp [he, hed]

end Axl.Own
