/-
Proofs for C81: attributes, and the copy of a node with the attributes of everything below it.
-/
import Verif.Proofs.Build
import Verif.Proofs.AttrMade
import Verif.Proofs.TreeCopy

namespace Axl.Work
open Spec.Build Spec.Tree Spec.Tree.Forest Spec.Attr Str
open Spec.RoundTrip (IsName)

theorem nul_eq : NUL = Char.ofNat 0 := rfl

/-! ### The attributes of one node -/

/-- The pair stored for a pair given. -/
def ep (p : List Char × List Char) : List Char × List Char := (p.1, encode p.2)

def Good (p : List Char × List Char) : Prop := IsName p.1 ∧ p.1 ≠ c!"xml:space" ∧ NUL ∉ p.2

/-- The attributes hold the pairs given. -/
structure Fit (a : Attrs) (ps : List (List Char × List Char)) : Prop where
  made : a.Made
  rep  : Attrs.Rep a (ps.map ep)
  good : ∀ p ∈ ps, Good p

theorem nul_name {k : List Char} (h : IsName k) : NUL ∉ k := fun h0 => (h.2 _ h0).2 (by simp [nul_eq])

theorem plain_name {k : List Char} (h : IsName k) : Plain k := by
  intro c hc e he hce
  have := (h.2 c hc).2
  simp only [Spec.Escape.entities, List.mem_cons, List.not_mem_nil, or_false] at he
  rcases he with rfl | rfl | rfl | rfl | rfl <;> simp_all

theorem Fit.empty : Fit Attrs.empty [] := ⟨.empty, Attrs.rep_empty, by simp⟩

theorem Fit.copy {a : Attrs} {ps : List (List Char × List Char)} (F : Fit a ps) (attributes : Bool) :
    ∃ b, a.copy attributes = some b ∧ Fit b (if attributes then ps else []) := by
  cases attributes with
  | false => exact ⟨_, Attrs.copy_off a, .empty⟩
  | true =>
    obtain ⟨b, h1, h2⟩ := Attrs.copy_spec F.rep
    exact ⟨b, h1, .copy F.made h1, h2, F.good⟩

theorem any_ep (ps : List (List Char × List Char)) (k : List Char) : (ps.map ep).any (fun p => p.1 == k) = ps.any (fun p => p.1 == k) := by
  rw [List.any_map]; rfl

theorem Fit.set {a : Attrs} {ps : List (List Char × List Char)} (F : Fit a ps) {k v : List Char} (g : Good (k, v)) :
    ∃ b, a.exec (.set k v) = some b ∧ Fit b (if ps.any (fun p => p.1 == k) then ps else (k, v) :: ps) := by
  obtain ⟨hk, hx, hv⟩ := g
  obtain ⟨b, h1, h2⟩ := Attrs.rep_setAttribute F.rep k v (nul_name hk) hv
  have he : a.exec (.set k v) = some b := h1
  rw [Attrs.encode_plain (plain_name hk), any_ep] at h2
  have hm : b.Made := by
    refine .call F.made ?_ he
    intro s hs
    simp only [Spec.Attr.Op.texts, List.mem_cons, List.not_mem_nil, or_false] at hs
    rcases hs with rfl | rfl
    · exact nul_name hk
    · exact hv
  refine ⟨b, he, hm, ?_, ?_⟩
  · by_cases h : ps.any (fun p => p.1 == k) = true
    · simpa [h] using h2
    · simpa [h, hk.1, ep] using h2
  · split
    · exact F.good
    · intro p hp
      rcases List.mem_cons.1 hp with rfl | hp
      · exact ⟨hk, hx, hv⟩
      · exact F.good p hp

theorem Fit.remove {a : Attrs} {ps : List (List Char × List Char)} (F : Fit a ps) {k : List Char} (hk : NUL ∉ k)
    (hd : damages ps k = false) : ∃ b, a.exec (.remove k) = some b ∧ Fit b (ps.filter fun p => p.1 != k) := by
  obtain ⟨b, h1, h2⟩ := Attrs.rep_remove F.rep k (by
    intro p hp
    obtain ⟨q, hq, rfl⟩ := List.mem_map.1 hp
    obtain ⟨g1, -, g3⟩ := F.good q hq
    exact ⟨nul_name g1, Attrs.nul_encode g3⟩)
  have he : a.exec (.remove k) = some b := h1
  refine ⟨b, he, .call F.made (by simpa [Spec.Attr.Op.texts] using hk) he, ?_, fun p hp => F.good p (List.mem_filter.1 hp).1⟩
  have hf : (ps.map ep).filter (fun p => p.1 != k) = (ps.filter fun p => p.1 != k).map ep := by
    rw [List.filter_map]; rfl
  rw [hf] at h2
  split at h2
  · next h =>
    rw [List.length_map] at h
    have ha : ps.any (fun p => p.1 == k) = true := by
      obtain ⟨q, hq, e⟩ := List.mem_map.1 h.2
      obtain ⟨r, hr, rfl⟩ := List.mem_map.1 hq
      exact List.any_eq_true.2 ⟨r, hr, by simpa [ep] using e⟩
    have hall : ∀ p ∈ ps, p.1 = k ∨ Plain p.2 := by
      simp only [damages, h.1, ha, beq_self_eq_true, Bool.and_self, Bool.true_and, Bool.not_eq_false', List.all_eq_true] at hd
      intro p hp
      simpa using hd p hp
    have : Attrs.reenc ((ps.filter fun p => p.1 != k).map ep) = (ps.filter fun p => p.1 != k).map ep := by
      rw [Attrs.reenc_eq, List.map_map]
      · apply List.map_congr_left
        intro p hp
        obtain ⟨hp1, hp2⟩ := List.mem_filter.1 hp
        have hpl : Plain p.2 := (hall p hp1).resolve_left (by simpa using hp2)
        simp [Attrs.enc2, ep, Attrs.encode_plain (plain_name (F.good p hp1).1), Attrs.encode_plain hpl]
      · intro p hp
        obtain ⟨q, hq, rfl⟩ := List.mem_map.1 hp
        exact (F.good q (List.mem_filter.1 hq).1).1.1
    rw [this] at h2
    exact h2
  · exact h2

/-! ### The copy -/

/-- What the program made, with the texts stored. -/
def sS (s : State) : State := { s with forest := sf s.forest }

/-- One step of the copy of the children. -/
def kidS (s : State) (d p : Nat) (acc : State) (c : Child) : State :=
  match c with
  | .text k x => acc.setKids p (acc.forest.kids p ++ [.text k x])
  | .node m => (s.addCopy d acc m true).setKids p ((s.addCopy d acc m true).forest.kids p ++ [.node acc.forest.next])

theorem addCopyS_succ (s : State) (d : Nat) (t : State) (n : Nat) (at' : Bool) :
    s.addCopy (d + 1) t n at' =
      (s.forest.kids n).foldl (kidS s d t.forest.next) (t.add (s.forest.name n) (if at' then s.attrs n else [])) := rfl

theorem kidS_forest {s : State} {d : Nat} (ih : ∀ t n b, (s.addCopy d t n b).forest = s.forest.addCopy d t.forest n) (p : Nat) (acc : State)
    (c : Child) : (kidS s d p acc c).forest = Heap.copyKid s.forest d p acc.forest c := by
  cases c with
  | text k x => rfl
  | node m => simp only [kidS, State.setKids, Heap.copyKid, ih]

theorem foldS_forest {s : State} {d : Nat} (ih : ∀ t n b, (s.addCopy d t n b).forest = s.forest.addCopy d t.forest n) (p : Nat) :
    ∀ (l : List Child) (acc : State), (l.foldl (kidS s d p) acc).forest = l.foldl (Heap.copyKid s.forest d p) acc.forest
  | [], _ => rfl
  | c :: l, acc => by
    rw [List.foldl_cons, List.foldl_cons, foldS_forest ih p l, kidS_forest ih]

theorem addCopy_forest (s : State) : ∀ (d : Nat) (t : State) (n : Nat) (b : Bool),
    (s.addCopy d t n b).forest = s.forest.addCopy d t.forest n
  | 0, _, _, _ => rfl
  | d + 1, t, n, b => by
    rw [addCopyS_succ, Heap.addCopy_succ, foldS_forest (addCopy_forest s d)]
    rfl

theorem kidS_sS {s : State} {d : Nat} (ih : ∀ t n b, (sS s).addCopy d (sS t) n b = sS (s.addCopy d t n b)) (p : Nat) (acc : State)
    (c : Child) : kidS (sS s) d p (sS acc) (sc c) = sS (kidS s d p acc c) := by
  have h : ∀ (t : State) (v : Child), (sS t).setKids p ((sS t).forest.kids p ++ [sc v]) = sS (t.setKids p (t.forest.kids p ++ [v])) := by
    intro t v
    have := setKids_sf t.forest p (t.forest.kids p ++ [v])
    rw [List.map_append] at this
    simp only [State.setKids, sS]
    rw [← this]
    rfl
  cases c with
  | text k x =>
    have : kidS (sS s) d p (sS acc) (sc (.text k x)) = (sS acc).setKids p ((sS acc).forest.kids p ++ [sc (.text k x)]) := by
      cases k <;> rfl
    rw [this, h]; rfl
  | node m =>
    have e := h (s.addCopy d acc m true) (.node acc.forest.next)
    simp only [kidS, sc_node, ih] at e ⊢
    exact e

theorem foldS_sS {s : State} {d : Nat} (ih : ∀ t n b, (sS s).addCopy d (sS t) n b = sS (s.addCopy d t n b)) (p : Nat) :
    ∀ (l : List Child) (acc : State), (l.map sc).foldl (kidS (sS s) d p) (sS acc) = sS (l.foldl (kidS s d p) acc)
  | [], _ => rfl
  | c :: l, acc => by
    rw [List.map_cons, List.foldl_cons, List.foldl_cons, kidS_sS ih, foldS_sS ih p l]

theorem add_sS (t : State) (name : List Char) (l : List (List Char × List Char)) : (sS t).add name l = sS (t.add name l) := by
  simp only [State.add, State.setAttrs, sS]
  congr 1
  simp only [sf, Forest.add]
  congr 1
  funext m
  by_cases h : m = t.forest.next <;> simp [h]

theorem addCopy_sS (s : State) : ∀ (d : Nat) (t : State) (n : Nat) (b : Bool), (sS s).addCopy d (sS t) n b = sS (s.addCopy d t n b)
  | 0, _, _, _ => rfl
  | d + 1, t, n, b => by
    rw [addCopyS_succ, addCopyS_succ]
    have := foldS_sS (addCopy_sS s d) t.forest.next (s.forest.kids n) (t.add (s.forest.name n) (if b then s.attrs n else []))
    rw [← add_sS] at this
    exact this

/-- What can be said of attributes and can be said of their copy. -/
def Copied (P : Attrs → List (List Char × List Char) → Prop) : Prop :=
  ∀ {a : Attrs} {ps : List (List Char × List Char)}, P a ps → ∀ b : Bool, ∃ a', a.copy b = some a' ∧ P a' (if b then ps else [])

/-- What copying a node amounts to, with the attributes. -/
def WCopies (P : Attrs → List (List Char × List Char) → Prop) (s : State) (d : Nat) : Prop :=
  ∀ (h : Heap) (t : State) (ns : Nat → List (Nat × Info)) (n : Nat) (A : Nat → Attrs) (b : Bool), Heap.Rep h t.forest ns →
    Tame t.forest → Heap.Extends s.forest t.forest → s.forest.live n = true → Depth s.forest d n →
    (∀ m, P (A m) (t.attrs m)) → (∀ m, s.forest.live m = true → t.attrs m = s.attrs m) →
    ∃ h' A', Heap.nodeCopyDepth d h n = some (h', t.forest.next) ∧ copyDepth d ⟨h, A⟩ n b true = some (⟨h', A'⟩, t.forest.next) ∧
      (∀ m, P (A' m) ((s.addCopy d t n b).attrs m)) ∧ ∀ m, s.forest.live m = true → (s.addCopy d t n b).attrs m = s.attrs m

theorem wloop {P : Attrs → List (List Char × List Char) → Prop} {s : State} {n d : Nat} {h0 : Heap} {g0 : Forest} {ns0 : Nat → List (Nat × Info)} (Tf : Tame s.forest)
    (rec : WCopies P s d) (hn : n < g0.next) (hnl : s.forest.live n = true) (hd : ∀ c, Edge s.forest n c → Depth s.forest d c) :
    ∀ (S Q : List (Nat × Info)) (k : Nat) (done : List Child) (h : Heap) (t : State) (ns : Nat → List (Nat × Info)) (A : Nat → Attrs),
      S.length ≤ k → ns0 n = Q ++ S → Heap.Copying s.forest n h0 g0 ns0 done h t.forest ns → (∀ m, P (A m) (t.attrs m)) →
      (∀ m, s.forest.live m = true → t.attrs m = s.attrs m) →
      ∃ h' A', Heap.copyLoop (Heap.nodeCopyDepth d) g0.next k h (headAddr S none) = some h' ∧
        copyLoop (fun w n => copyDepth d w n true true) g0.next k ⟨h, A⟩ (headAddr S none) = some ⟨h', A'⟩ ∧
        (∀ m, P (A' m) (((S.map (·.2.data)).foldl (kidS s d g0.next) t).attrs m)) ∧
        ∀ m, s.forest.live m = true → ((S.map (·.2.data)).foldl (kidS s d g0.next) t).attrs m = s.attrs m
  | [], _, k, done, h, t, ns, A, _, _, _, F, K => ⟨h, A, by cases k <;> rfl, by cases k <;> rfl, F, K⟩
  | (a, i) :: S, Q, 0, done, h, t, ns, A, hk, _, _, _, _ => by simp at hk
  | (a, i) :: S, Q, k + 1, done, h, t, ns, A, hk, hs, C, F, K => by
    have hl : t.forest.live n = true := C.ext.live n hnl
    have hns : ns n = Q ++ (a, i) :: S := by rw [C.above.lists n hn]; exact hs
    have seg := C.rep.seg n hl
    rw [hns] at seg
    have hcell := seg_mid seg
    have hent := C.rep.entry hl (a := a) (i := i) (by rw [hns]; simp)
    have next : ∀ {done' h' g' ns'}, Heap.Copying s.forest n h0 g0 ns0 done' h' g' ns' →
        ∃ cell, h'.items a = some cell ∧ cell.next = headAddr S none := by
      intro done' h' g' ns' C'
      have hns' : ns' n = Q ++ (a, i) :: S := by rw [C'.above.lists n hn]; exact hs
      have seg' := C'.rep.seg n (C'.ext.live n hnl)
      rw [hns'] at seg'
      exact ⟨_, seg_mid seg', rfl⟩
    obtain ⟨par, v⟩ := i
    cases v with
    | text kd x =>
      obtain ⟨h1, ns1, e1, C1⟩ := C.text (d := d) kd x
      obtain ⟨cell, c1, c2⟩ := next C1
      obtain ⟨h', A', e', e2', F', K'⟩ := wloop Tf rec hn hnl hd S (Q ++ [(a, ⟨par, .text kd x⟩)]) k _ h1
        (kidS s d g0.next t (.text kd x)) ns1 A (by simpa using hk) (by rw [hs]; simp) C1 F K
      refine ⟨h', A', ?_, ?_, F', K'⟩
      · simp only [headAddr_cons, Heap.copyLoop, Heap.itemCopyWith, hcell, Heap.newItem_setParent, Option.map_some, e1, c1, c2]
        exact e'
      · simp only [headAddr_cons, copyLoop, copyItem, hcell, Heap.newItem_setParent, Option.map_some, e1, c1, c2]
        exact e2'
    | node c =>
      have ec : Edge s.forest n c := ⟨hnl, by rw [← C.ext.kids n hnl]; exact hent.2⟩
      have hcl : s.forest.live c = true := Tf.closed _ _ ec
      obtain ⟨h2, h3, h4, h5, ns1, e2, e3, e4, e5, C1⟩ := C.node (Heap.copies Tf d) hcl (hd c ec)
      obtain ⟨cell, c1, c2⟩ := next C1
      obtain ⟨h2', A2, f1, f2, F2, K2⟩ := rec (h.alloc g0.next (.text .content [])) t ns c A true (C.rep.alloc _ _) C.tame C.ext hcl
        (hd c ec) F K
      rw [e2] at f1
      simp only [Option.some.injEq, Prod.mk.injEq, and_true] at f1
      subst f1
      rw [← kidS_forest (addCopy_forest s d)] at C1
      obtain ⟨h', A', e', e2', F', K'⟩ := wloop Tf rec hn hnl hd S (Q ++ [(a, ⟨par, .node c⟩)]) k _ h5
        (kidS s d g0.next t (.node c)) ns1 A2 (by simpa using hk) (by rw [hs]; simp) C1 F2 K2
      refine ⟨h', A', ?_, ?_, F', K'⟩
      · simp only [headAddr_cons, Heap.copyLoop, Heap.itemCopyWith, hcell, Heap.newItem_setParent, Option.bind_eq_bind,
          Option.bind_some, e2, e3, e4, e5, c1, c2]
        exact e'
      · simp only [headAddr_cons, copyLoop, copyItem, hcell, Heap.newItem_setParent, Option.bind_eq_bind,
          Option.bind_some, f2, e3, e4, e5, c1, c2]
        exact e2'

theorem wcopies {P : Attrs → List (List Char × List Char) → Prop} (hP : Copied P) {s : State} (Tf : Tame s.forest) : ∀ d, WCopies P s d
  | 0 => fun _ _ _ _ _ _ _ _ _ _ hd _ _ => absurd hd (by simp [Depth])
  | d + 1 => by
    intro h t ns n A b R T E hn hd F K
    have hl := E.live n hn
    obtain ⟨hdr, hnode⟩ := R.nodes n hl
    have hlt : n < t.forest.next := T.bound n hl
    have C := Heap.copying_start R T E hn
    obtain ⟨a, ha, hfa⟩ := hP (F n) b
    rw [K n hn] at hfa
    have F1 : ∀ m, P ((fun m => if m = t.forest.next then a else A m) m)
        ((t.add (s.forest.name n) (if b then s.attrs n else [])).attrs m) := by
      intro m
      simp only [State.add, State.setAttrs]
      split
      · exact hfa
      · exact F m
    have K1 : ∀ m, s.forest.live m = true → (t.add (s.forest.name n) (if b then s.attrs n else [])).attrs m = s.attrs m := by
      intro m hm
      have : m ≠ t.forest.next := by
        have := T.bound m (E.live m hm); omega
      simp only [State.add, State.setAttrs, this, if_false]
      exact K m hm
    obtain ⟨h', A', e, e2, F', K'⟩ := wloop Tf (wcopies hP Tf d) hlt hn (fun c ec => hd c ec) (ns n) [] h.nextItem []
      (h.create (s.forest.name n)).1 (t.add (s.forest.name n) (if b then s.attrs n else [])) _
      (fun m => if m = t.forest.next then a else A m) (R.length_le hl) rfl C F1 K1
    have hkid : (ns n).map (·.2.data) = s.forest.kids n := by rw [← R.kids_eq hl, E.kids n hn]
    rw [hkid, ← addCopyS_succ] at F' K'
    have hc : (h.create (s.forest.name n)).2 = t.forest.next := R.next
    refine ⟨h', A', ?_, ?_, F', K'⟩
    · simp only [Heap.nodeCopyDepth, hnode, E.name n hn]
      rw [hc, e]; rfl
    · simp only [copyDepth, hnode, E.name n hn, ha, hc, if_true]
      rw [e2]; rfl

theorem copy_stored {P : Attrs → List (List Char × List Char) → Prop} (hP : Copied P) {w : Work} {s : State}
    (I : Heap.Inv w.heap s.forest) (F : ∀ m, P (w.attrs m) (s.attrs m)) {n : Nat}
    (hn : s.forest.live n = true) (attributes childs : Bool) :
    ∃ w', w.copy n attributes childs = some (w', s.forest.next) ∧
      Heap.Inv w'.heap (Call.step s (.copy n attributes childs)).forest ∧
      ∀ m, P (w'.attrs m) ((Call.step s (.copy n attributes childs)).attrs m) := by
  obtain ⟨⟨ns, R⟩, T⟩ := I
  obtain ⟨h, A⟩ := w
  have hnext : h.nextNode = s.forest.next := R.next
  cases childs with
  | true =>
    obtain ⟨h', A', e1, e2, F', -⟩ := wcopies hP (s := s) T s.forest.next h s ns n A attributes R T
      ⟨fun _ h => h, fun _ _ => rfl, fun _ _ => rfl⟩ hn (depth_next T hn) F (fun _ _ => rfl)
    obtain ⟨h2, ns', e3, R', T', -⟩ := Heap.copies T s.forest.next h s.forest ns n R T
      ⟨fun _ h => h, fun _ _ => rfl, fun _ _ => rfl⟩ hn (depth_next T hn)
    rw [e1] at e3
    simp only [Option.some.injEq, Prod.mk.injEq, and_true] at e3
    subst e3
    refine ⟨⟨h', A'⟩, by simp only [copy, hnext]; exact e2, ?_, F'⟩
    have : (Call.step s (.copy n attributes true)).forest = s.forest.addCopy s.forest.next s.forest n :=
      addCopy_forest s s.forest.next s n attributes
    rw [this]
    exact ⟨⟨ns', R'⟩, T'⟩
  | false =>
    obtain ⟨hd, hx⟩ := R.nodes n hn
    obtain ⟨a, ha, hfa⟩ := hP (F n) attributes
    have I' := Heap.inv_create ⟨⟨ns, R⟩, T⟩ (s.forest.name n)
    obtain ⟨d, hdep⟩ : ∃ d, h.nextNode = d + 1 := by
      have := T.bound n hn
      exact ⟨h.nextNode - 1, by omega⟩
    have hc : (h.create (s.forest.name n)).2 = s.forest.next := R.next
    refine ⟨⟨(h.create (s.forest.name n)).1, fun m => if m = s.forest.next then a else A m⟩, ?_, I', ?_⟩
    · simp only [copy]
      rw [hdep]
      have hx' : h.nodes n = some ⟨s.forest.name n, headAddr (ns n) none, lastAddr (ns n) none, hd⟩ := hx
      have ha' : (A n).copy attributes = some a := ha
      simp only [copyDepth, hx', ha', hc, Bool.false_eq_true, if_false]
    · intro m
      simp only [Call.step, State.add, State.setAttrs, Bool.false_eq_true, if_false]
      split
      · exact hfa
      · exact F m

theorem step_copy_sS (s : State) (n : Nat) (attributes childs : Bool) :
    Call.step (sS s) (.copy n attributes childs) = sS (Call.step s (.copy n attributes childs)) := by
  cases childs with
  | true => exact addCopy_sS s s.forest.next s n attributes
  | false => exact add_sS s (s.forest.name n) (if attributes then s.attrs n else [])

theorem copy_spec {w : Work} {s : State} (I : Heap.Inv w.heap (sf s.forest)) (F : ∀ m, Fit (w.attrs m) (s.attrs m)) {n : Nat}
    (hn : s.forest.live n = true) (attributes childs : Bool) :
    ∃ w', w.copy n attributes childs = some (w', s.forest.next) ∧
      Heap.Inv w'.heap (sf (Call.step s (.copy n attributes childs)).forest) ∧
      ∀ m, Fit (w'.attrs m) ((Call.step s (.copy n attributes childs)).attrs m) := by
  obtain ⟨w', h1, h2, h3⟩ := copy_stored (P := Fit) (fun F b => F.copy b) (s := sS s) I F (n := n) hn attributes childs
  rw [step_copy_sS] at h2 h3
  exact ⟨w', h1, h2, h3⟩

end Axl.Work
