/-
Proofs for C57: what each call on a node does to the blocks.
-/
import Verif.Proofs.Own

namespace Axl.Own

/-- What was taken out of a node: a node may have lost its item. -/
def okOut (P : List Nat) : Items → Prop
  | .nil => True
  | .node n next => okNode P n ∧ okOut P next
  | .leaf l next => okLeaf P l ∧ okOut P next

theorem okOut_of {P} : ∀ {l : Items}, okItems P l → okOut P l
  | .nil, _ => trivial
  | .node _ _, h => ⟨h.1, okOut_of h.2.2⟩
  | .leaf _ _, h => ⟨h.1, okOut_of h.2⟩

/-- At most one item. -/
def single : Items → Prop
  | .nil => True
  | .node _ next => next = .nil
  | .leaf _ next => next = .nil

theorem single_at : ∀ (l : Items) (i : Nat) {x : Items}, l.at? i = some x → single x
  | .nil, _, _, h => by simp [Items.at?] at h
  | .node n s, 0, x, h => by simp [Items.at?] at h; subst h; rfl
  | .leaf n s, 0, x, h => by simp [Items.at?] at h; subst h; rfl
  | .node n s, i + 1, x, h => single_at s i (by simpa [Items.at?] using h)
  | .leaf n s, i + 1, x, h => single_at s i (by simpa [Items.at?] using h)

/-- A call on a node keeps the flags true, and moves the blocks `I` into the node or out of it.  What
it takes out is as `O` says. -/
def Works (P : List Nat) (O : Items → Prop) (f : Edit) (pre : Node → Prop) (I : List Nat) : Prop :=
  ∀ s n L, okNode P n → pre n → St P s (nodeB n ++ I ++ L) →
    ∃ s' n' out, f s n = some (s', n', out) ∧ okNode P n' ∧ O out ∧
      St P s' (nodeB n' ++ itemsB out ++ L) ∧ n'.head.holder = n.head.holder

theorem touchSelf {P s h items L} (hh : okHead P h) (hs : St P s (nodeB (.mk h items) ++ L)) :
    s.touch h.self = some () := hs.touch hh.self (by intro b hb; simp [nodeB, headB, hb])

theorem itemsB_append : ∀ (a b : Items), itemsB (a.append b) = itemsB a ++ itemsB b
  | .nil, b => by simp [Items.append, itemsB]
  | .node n s, b => by simp [Items.append, itemsB, itemsB_append s b]
  | .leaf l s, b => by simp [Items.append, itemsB, itemsB_append s b]

theorem okItems_append {P} : ∀ (a b : Items), okItems P (a.append b) ↔ okItems P a ∧ okItems P b
  | .nil, b => by simp [Items.append, okItems]
  | .node n s, b => by simp [Items.append, okItems, okItems_append s b, and_assoc]
  | .leaf l s, b => by simp [Items.append, okItems, okItems_append s b, and_assoc]

theorem itemsB_insertAfter : ∀ (a : Items) (i : Nat) (b : Items), (itemsB (a.insertAfter i b)).Perm (itemsB a ++ itemsB b)
  | .nil, _, b => by simp [Items.insertAfter, itemsB]
  | .node n s, 0, b => by
    simp only [Items.insertAfter, itemsB, itemsB_append]; perm
  | .leaf n s, 0, b => by
    simp only [Items.insertAfter, itemsB, itemsB_append]; perm
  | .node n s, i + 1, b => by
    have := itemsB_insertAfter s i b
    simp only [Items.insertAfter, itemsB]
    exact (this.append_left _).trans (by perm)
  | .leaf n s, i + 1, b => by
    have := itemsB_insertAfter s i b
    simp only [Items.insertAfter, itemsB]
    exact (this.append_left _).trans (by perm)

theorem okItems_insertAfter {P} : ∀ (a : Items) (i : Nat) (b : Items), okItems P (a.insertAfter i b) ↔ okItems P a ∧ okItems P b
  | .nil, _, b => by simp [Items.insertAfter, okItems]
  | .node n s, 0, b => by
    simp only [Items.insertAfter, okItems, okItems_append]
    constructor <;> rintro ⟨h1, h2⟩ <;> grind
  | .leaf n s, 0, b => by
    simp only [Items.insertAfter, okItems, okItems_append]
    constructor <;> rintro ⟨h1, h2⟩ <;> grind
  | .node n s, i + 1, b => by simp [Items.insertAfter, okItems, okItems_insertAfter s i b, and_assoc]
  | .leaf n s, i + 1, b => by simp [Items.insertAfter, okItems, okItems_insertAfter s i b, and_assoc]

theorem itemsB_erase : ∀ (a : Items) (i : Nat) {x : Items}, a.at? i = some x → (itemsB a).Perm (itemsB (a.erase i) ++ itemsB x)
  | .nil, _, _, h => by simp [Items.at?] at h
  | .node n s, 0, x, h => by
    simp only [Items.at?, Option.some.injEq] at h; subst h
    simp only [Items.erase, itemsB]; perm
  | .leaf n s, 0, x, h => by
    simp only [Items.at?, Option.some.injEq] at h; subst h
    simp only [Items.erase, itemsB]; perm
  | .node n s, i + 1, x, h => by
    have := itemsB_erase s i (x := x) (by simpa [Items.at?] using h)
    simp only [Items.erase, itemsB]
    exact (this.append_left _).trans (by perm)
  | .leaf n s, i + 1, x, h => by
    have := itemsB_erase s i (x := x) (by simpa [Items.at?] using h)
    simp only [Items.erase, itemsB]
    exact (this.append_left _).trans (by perm)

theorem okItems_erase {P} : ∀ (a : Items) (i : Nat) {x : Items}, a.at? i = some x → okItems P a → okItems P (a.erase i) ∧ okItems P x
  | .nil, _, _, h, _ => by simp [Items.at?] at h
  | .node n s, 0, x, h, ho => by
    simp only [Items.at?, Option.some.injEq] at h; subst h
    exact ⟨ho.2.2, ho.1, ho.2.1, trivial⟩
  | .leaf n s, 0, x, h, ho => by
    simp only [Items.at?, Option.some.injEq] at h; subst h
    exact ⟨ho.2, ho.1, trivial⟩
  | .node n s, i + 1, x, h, ho => by
    obtain ⟨h1, h2⟩ := okItems_erase s i (x := x) (by simpa [Items.at?] using h) ho.2.2
    exact ⟨⟨ho.1, ho.2.1, h1⟩, h2⟩
  | .leaf n s, i + 1, x, h, ho => by
    obtain ⟨h1, h2⟩ := okItems_erase s i (x := x) (by simpa [Items.at?] using h) ho.2
    exact ⟨⟨ho.1, h1⟩, h2⟩

/-! Names. -/

theorem setName_works {P} : Works P (· = .nil) setName (fun _ => True) [] := by
  rintro s ⟨h, items⟩ L ⟨hh, hi⟩ - hs
  have t0 := touchSelf hh (hs.of_perm (L' := nodeB (.mk h items) ++ L) (by perm))
  obtain ⟨s1, e1, h1⟩ := (hs.of_perm (L' := refB h.name ++ (refB h.self ++ attrsB h.attrs ++ annotB h.annot ++ holderB h.holder ++ itemsB items ++ L)) (by simp only [nodeB, headB]; perm)).freeUnless hh.name
  obtain ⟨h2, o2⟩ := h1.alloc
  refine ⟨s1.alloc.1, .mk { h with name := s1.alloc.2, nameFactory := false } items, .nil, by simp [setName, t0, e1], ⟨⟨hh.self, o2, hh.attrs, hh.annot, hh.holder⟩, hi⟩, rfl, ?_, rfl⟩
  exact h2.of_perm (by simp only [nodeB, headB, itemsB]; perm)

theorem setNameRef_works {P} : Works P (· = .nil) setNameRef (fun n => ∃ b, n.head.name = .own b) [] := by
  rintro s ⟨h, items⟩ L ⟨hh, hi⟩ ⟨b, hb⟩ hs
  have hnf : h.nameFactory = false := by
    have := hh.name
    have hb' : h.name = .own b := hb
    rw [hb'] at this; exact this
  obtain ⟨h2, o2⟩ := hs.alloc
  have t0 : s.alloc.1.touch h.self = some () := h2.touch hh.self (by intro b hb; simp [nodeB, headB, hb])
  obtain ⟨s1, e1, h1⟩ := (h2.of_perm (L' := refB h.name ++ (refB s.alloc.2 ++ refB h.self ++ attrsB h.attrs ++ annotB h.annot ++ holderB h.holder ++ itemsB items ++ L)) (by simp only [nodeB, headB]; perm)).freeUnless hh.name
  refine ⟨s1, .mk { h with name := s.alloc.2 } items, .nil, by simp [setNameRef, t0, e1], ⟨⟨hh.self, by simpa [hnf] using o2, hh.attrs, hh.annot, hh.holder⟩, hi⟩, rfl, ?_, rfl⟩
  exact h1.of_perm (by simp only [nodeB, headB, itemsB]; perm)

/-! Attributes. -/

/-- A call on the attributes keeps the flags true and each block in one place. -/
def WorksA (P : List Nat) (f : Store → Attrs → Option (Store × Attrs)) : Prop :=
  ∀ s a L, okAttrs P a → St P s (attrsB a ++ L) → ∃ s' a', f s a = some (s', a') ∧ okAttrs P a' ∧ St P s' (attrsB a' ++ L)

theorem onAttrs_works {P f} (hf : WorksA P f) : Works P (· = .nil) (onAttrs f) (fun _ => True) [] := by
  rintro s ⟨h, items⟩ L ⟨hh, hi⟩ - hs
  have t0 := touchSelf hh (hs.of_perm (L' := nodeB (.mk h items) ++ L) (by perm))
  obtain ⟨s1, a1, e1, o1, h1⟩ := hf s h.attrs (refB h.self ++ refB h.name ++ annotB h.annot ++ holderB h.holder ++ itemsB items ++ L) hh.attrs (hs.of_perm (by simp only [nodeB, headB]; perm))
  refine ⟨s1, .mk { h with attrs := a1 } items, .nil, by simp [onAttrs, t0, e1], ⟨⟨hh.self, hh.name, o1, hh.annot, hh.holder⟩, hi⟩, rfl, ?_, rfl⟩
  exact h1.of_perm (by simp only [nodeB, headB, itemsB]; perm)

theorem mem_attrListB {a : AttrC} {l : List AttrC} (ha : a ∈ l) : ∀ b ∈ attrB a, b ∈ attrListB l := by
  induction l with
  | nil => simp at ha
  | cons x l ih =>
    intro b hb
    rcases List.mem_cons.mp ha with rfl | ha
    · simp [attrListB, hb]
    · simp [attrListB, ih ha b hb]

theorem mem_entriesB {a : Entry} {l : List Entry} (ha : a ∈ l) : ∀ b ∈ entryB a, b ∈ entriesB l := by
  induction l with
  | nil => simp at ha
  | cons x l ih =>
    intro b hb
    rcases List.mem_cons.mp ha with rfl | ha
    · simp [entriesB, hb]
    · simp [entriesB, ih ha b hb]

theorem hasList_ok {P s L key} (hs : St P s L) : ∀ (l : List AttrC), okAttrList P l → (∀ b ∈ attrListB l, b ∈ L) →
    ∃ r, hasList s key l = some r
  | [], _, _ => ⟨false, rfl⟩
  | a :: l, hl, hb => by
    obtain ⟨oc, on, _⟩ := hl a (by simp)
    have t1 := hs.touch oc (fun b h => hb b (by simp [attrListB, attrB, h]))
    have t2 := hs.touch on (fun b h => hb b (by simp [attrListB, attrB, h]))
    obtain ⟨r, hr⟩ := hasList_ok (key := key) hs l (fun x hx => hl x (by simp [hx])) (fun b h => hb b (by simp [attrListB, h]))
    by_cases hk : a.key = key
    · exact ⟨true, by simp [hasList, t1, t2, hk]⟩
    · exact ⟨r, by simp [hasList, t1, t2, hk, hr]⟩

theorem hasEntry_ok {P s L key} (hs : St P s L) : ∀ (l : List Entry), okEntries P l → (∀ b ∈ entriesB l, b ∈ L) →
    ∃ r, hasEntry s key l = some r
  | [], _, _ => ⟨false, rfl⟩
  | a :: l, hl, hb => by
    have t1 := hs.touch (hl a (by simp)).1 (fun b h => hb b (by simp [entriesB, entryB, h]))
    obtain ⟨r, hr⟩ := hasEntry_ok (key := key) hs l (fun x hx => hl x (by simp [hx])) (fun b h => hb b (by simp [entriesB, h]))
    by_cases hk : a.text = key
    · exact ⟨true, by simp [hasEntry, t1, hk]⟩
    · exact ⟨r, by simp [hasEntry, t1, hk, hr]⟩

theorem hasAttribute_ok {P s L key a} (hs : St P s (attrsB a ++ L)) (ha : okAttrs P a) : ∃ r, hasAttribute s key a = some r := by
  cases a with
  | list l => exact hasList_ok hs l ha (fun b h => by simp [attrsB, h])
  | hash r l =>
    have t1 := hs.touch ha.1 (fun b h => by simp [attrsB, h])
    obtain ⟨x, hx⟩ := hasEntry_ok (key := key) hs l ha.2 (fun b h => by simp [attrsB, h])
    exact ⟨x, by simp [hasAttribute, t1, hx]⟩

theorem moveToHash_ok {P} : ∀ (l : List AttrC) (acc : List Entry) {s L}, okAttrList P l → okEntries P acc →
    St P s (attrListB l ++ entriesB acc ++ L) →
    ∃ s' es, moveToHash s l acc = some (s', es) ∧ okEntries P es ∧ St P s' (entriesB es ++ L)
  | [], acc, s, L, _, ha, h => ⟨s, acc, rfl, ha, h⟩
  | a :: l, acc, s, L, hl, ha, h => by
    obtain ⟨oc, on, ov⟩ := hl a (by simp)
    have t := h.touch oc (by intro b hb; simp [attrListB, attrB, hb])
    obtain ⟨s1, e1, h1⟩ := (h.of_perm (L' := refB a.cell ++ (refB a.name ++ refB a.value ++ attrListB l ++ entriesB acc ++ L)) (by simp only [attrListB, attrB]; perm)).freeUnless oc
    obtain ⟨s2, es, e2, o2, h2⟩ := moveToHash_ok l (⟨a.key, a.name, !a.fromFactory, if a.fromFactory then [] else [a.value]⟩ :: acc) (s := s1) (L := L)
      (fun x hx => hl x (by simp [hx]))
      (by
        intro e he
        rcases List.mem_cons.mp he with rfl | he
        · refine ⟨by simpa using on, ?_⟩
          intro r hr
          cases hf : a.fromFactory <;> simp_all
        · exact ha e he)
      (h1.of_perm (by
        have hv : refB a.value = refsB (if a.fromFactory then [] else [a.value]) := by
          cases hf : a.fromFactory with
          | false => simp [refsB]
          | true => rw [hf] at ov; cases hv : a.value <;> simp_all [okRef, refB, refsB]
        simp only [entriesB, entryB, hv]; perm))
    exact ⟨s2, es, by simp [moveToHash, t, e1, e2], o2, h2⟩

/-- Where the strings of an attribute are, given the factory used. -/
theorem attrCell_ok {P f s L} (hf : ∀ d, f = some d → d ∈ P) (h : St P s L) :
    ∃ s' c, attrCell s f = some (s', c) ∧ okRef P f.isSome c ∧ St P s' (refB c ++ L) := by
  cases f with
  | none => exact ⟨_, _, rfl, h.alloc.2, h.alloc.1⟩
  | some d =>
    have t := h.touchPool (hf d rfl)
    exact ⟨s, .pool d, by simp [attrCell, t], ⟨rfl, hf d rfl⟩, by simpa [refB] using h⟩

theorem setAttrInternal_ok {P a key name value f s L} (ha : okAttrs P a) (hf : ∀ d, f = some d → d ∈ P)
    (hn : okRef P f.isSome name) (hv : okRef P f.isSome value) (h : St P s (attrsB a ++ refB name ++ refB value ++ L)) :
    ∃ s' a' ok, setAttrInternal s a key name value f = some (s', a', ok) ∧ okAttrs P a' ∧
      St P s' (attrsB a' ++ (if ok then [] else refB name ++ refB value) ++ L) := by
  have hv' : refB value = refsB (if f.isSome then [] else [value]) := by
    cases f with
    | none => simp [refsB]
    | some d => cases value <;> simp_all [okRef, refB, refsB]
  have hk : okEntry P ⟨key, name, f.isNone, if f.isSome then [] else [value]⟩ := by
    constructor
    · cases f <;> simpa using hn
    · intro r hr; cases f with
      | none => simp at hr; subst hr; simpa using hv
      | some d => simp at hr
  match a, ha with
  | .list [], ha =>
    obtain ⟨s1, c, e1, o1, h1⟩ := attrCell_ok hf h
    refine ⟨_, _, _, by simp [setAttrInternal, e1]; exact ⟨rfl, rfl, rfl⟩, ?_, ?_⟩
    · intro x hx
      simp at hx; subst hx
      exact ⟨o1, hn, hv⟩
    · exact h1.of_perm (by simp only [attrsB, attrListB, attrB, if_true]; perm)
  | .list (x :: l), ha =>
    obtain ⟨r, hr⟩ := hasAttribute_ok (key := key) (a := .list (x :: l)) (L := refB name ++ refB value ++ L) (h.of_perm (by perm)) ha
    cases r with
    | true => exact ⟨s, _, false, by simp [setAttrInternal, hr], ha, h.of_perm (by simp only [Bool.false_eq_true, if_false]; perm)⟩
    | false =>
      by_cases hl : (x :: l).length < 10
      · obtain ⟨s1, c, e1, o1, h1⟩ := attrCell_ok hf h
        refine ⟨_, _, _, by simp only [setAttrInternal, hr, hl, e1, if_true, Option.bind_eq_bind, Option.bind_some, Bool.false_eq_true, if_false]; rfl, ?_, ?_⟩
        · intro y hy
          rcases List.mem_cons.mp hy with rfl | hy
          · exact ⟨o1, hn, hv⟩
          · exact ha y hy
        · exact h1.of_perm (by simp only [attrsB, attrListB, attrB, if_true]; perm)
      · obtain ⟨h1, o1⟩ := h.alloc
        obtain ⟨s2, es, e2, o2, h2⟩ := moveToHash_ok (x :: l) [] (s := s.alloc.1) (L := refB s.alloc.2 ++ refB name ++ refB value ++ L) ha (by intro e he; simp at he) (h1.of_perm (by simp only [attrsB, entriesB]; perm))
        refine ⟨_, _, _, by simp only [setAttrInternal, hr, hl, e2, Option.bind_eq_bind, Option.bind_some, Bool.false_eq_true, if_false]; rfl, ?_, ?_⟩
        · refine ⟨o1, ?_⟩
          intro e he
          rcases List.mem_cons.mp he with rfl | he
          · exact hk
          · exact o2 e he
        · exact h2.of_perm (by simp only [attrsB, entriesB, entryB, if_true, ← hv']; perm)
  | .hash r0 l, ha =>
    obtain ⟨r, hr⟩ := hasAttribute_ok (key := key) (a := .hash r0 l) (L := refB name ++ refB value ++ L) (h.of_perm (by perm)) ha
    cases r with
    | true => exact ⟨s, _, false, by simp [setAttrInternal, hr], ha, h.of_perm (by simp only [Bool.false_eq_true, if_false]; perm)⟩
    | false =>
      refine ⟨_, _, _, by simp only [setAttrInternal, hr, Option.bind_eq_bind, Option.bind_some, Bool.false_eq_true, if_false]; rfl, ?_, ?_⟩
      · refine ⟨ha.1, ?_⟩
        intro e he
        rcases List.mem_cons.mp he with rfl | he
        · exact hk
        · exact ha.2 e he
      · exact h.of_perm (by simp only [attrsB, entriesB, entryB, if_true, ← hv']; perm)

theorem setAttr_works {P esc key} : WorksA P (fun s a => setAttr esc s a key) := by
  intro s a L ha h
  by_cases hk : key = []
  · exact ⟨s, a, by simp [setAttr, hk], ha, h⟩
  obtain ⟨h1, o1⟩ := h.alloc
  obtain ⟨h2, o2⟩ := h1.alloc
  obtain ⟨s3, a3, ok, e3, o3, h3⟩ := setAttrInternal_ok (key := esc key) (f := none) (name := s.alloc.2) (value := s.alloc.1.alloc.2) (L := L) ha (by simp) o1 o2 (h2.of_perm (by perm))
  cases ok with
  | true => exact ⟨s3, a3, by simp only [setAttr, hk, if_false, e3]; rfl, o3, by simpa using h3⟩
  | false =>
    obtain ⟨s4, e4, h4⟩ := (h3.of_perm (L' := refB s.alloc.2 ++ (refB s.alloc.1.alloc.2 ++ (attrsB a3 ++ L))) (by simp only [Bool.false_eq_true, if_false]; perm)).free o1
    obtain ⟨s5, e5, h5⟩ := h4.free o2
    exact ⟨s5, a3, by simp [setAttr, hk, e3, e4, e5], o3, h5⟩

theorem setAttrRef_works {P key} : WorksA P (fun s a => setAttrRef s a key) := by
  intro s a L ha h
  obtain ⟨h1, o1⟩ := h.alloc
  obtain ⟨h2, o2⟩ := h1.alloc
  obtain ⟨s3, a3, ok, e3, o3, h3⟩ := setAttrInternal_ok (key := key) (f := none) (name := s.alloc.2) (value := s.alloc.1.alloc.2) (L := L) ha (by simp) o1 o2 (h2.of_perm (by perm))
  cases ok with
  | true => exact ⟨s3, a3, by simp only [setAttrRef, e3]; rfl, o3, by simpa using h3⟩
  | false =>
    obtain ⟨s4, e4, h4⟩ := (h3.of_perm (L' := refB s.alloc.2 ++ (refB s.alloc.1.alloc.2 ++ (attrsB a3 ++ L))) (by simp only [Bool.false_eq_true, if_false]; perm)).free o1
    obtain ⟨s5, e5, h5⟩ := h4.free o2
    exact ⟨s5, a3, by simp [setAttrRef, e3, e4, e5], o3, h5⟩

theorem setAttrFactory_ok {P d key} (hd : d ∈ P) : WorksA P (fun s a => setAttrFactory s d a key) := by
  intro s a L ha h
  obtain ⟨s3, a3, ok, e3, o3, h3⟩ := setAttrInternal_ok (key := key) (f := some d) (name := .pool d) (value := .pool d) (L := L) ha (by simp [hd]) ⟨rfl, hd⟩ ⟨rfl, hd⟩ (h.of_perm (by simp only [refB]; perm))
  refine ⟨s3, a3, by simp [setAttrFactory, e3], o3, ?_⟩
  cases ok <;> simpa [refB] using h3

theorem removeList_ok {P key} : ∀ (l : List AttrC) {s L}, okAttrList P l → St P s (attrListB l ++ L) →
    ∃ s' l', removeList s key l = some (s', l') ∧ okAttrList P l' ∧ St P s' (attrListB l' ++ L)
  | [], s, L, hl, h => ⟨s, [], rfl, hl, h⟩
  | a :: l, s, L, hl, h => by
    obtain ⟨oc, on, ov⟩ := hl a (by simp)
    have hl' : okAttrList P l := fun x hx => hl x (by simp [hx])
    have t1 := h.touch oc (by intro b hb; simp [attrListB, attrB, hb])
    have t2 := h.touch on (by intro b hb; simp [attrListB, attrB, hb])
    by_cases hk : a.key = key
    · cases hf : a.fromFactory with
      | true =>
        have : attrB a = [] := by
          rw [hf] at oc on ov
          cases hc : a.cell <;> cases hn : a.name <;> cases hv : a.value <;> simp_all [okRef, attrB, refB]
        exact ⟨s, l, by simp [removeList, t1, t2, hk, hf], hl', h.of_perm (by simp [attrListB, this])⟩
      | false =>
        rw [hf] at oc on ov
        obtain ⟨s1, e1, h1⟩ := (h.of_perm (L' := refB a.name ++ (refB a.value ++ (refB a.cell ++ (attrListB l ++ L)))) (by simp only [attrListB, attrB]; perm)).free on
        obtain ⟨s2, e2, h2⟩ := h1.free ov
        obtain ⟨s3, e3, h3⟩ := h2.free oc
        exact ⟨s3, l, by simp [removeList, t1, t2, hk, hf, e1, e2, e3], hl', h3⟩
    · obtain ⟨s1, l1, e1, o1, h1⟩ := removeList_ok (key := key) l (L := attrB a ++ L) hl' (h.of_perm (by simp only [attrListB]; perm))
      refine ⟨s1, a :: l1, by simp [removeList, t1, t2, hk, e1], ?_, h1.of_perm (by simp only [attrListB]; perm)⟩
      intro x hx
      rcases List.mem_cons.mp hx with rfl | hx
      · exact ⟨oc, on, ov⟩
      · exact o1 x hx

theorem removeEntry_ok {P key} : ∀ (l : List Entry) {s L}, okEntries P l → St P s (entriesB l ++ L) →
    ∃ s' l', removeEntry s key l = some (s', l') ∧ okEntries P l' ∧ St P s' (entriesB l' ++ L)
  | [], s, L, hl, h => ⟨s, [], rfl, hl, h⟩
  | a :: l, s, L, hl, h => by
    have ho := hl a (by simp)
    have hl' : okEntries P l := fun x hx => hl x (by simp [hx])
    have t1 := h.touch ho.1 (by intro b hb; simp [entriesB, entryB, hb])
    by_cases hk : a.text = key
    · obtain ⟨s1, e1, h1⟩ := freeEntry_ok ho (h.of_perm (L' := entryB a ++ (entriesB l ++ L)) (by simp only [entriesB]; perm))
      exact ⟨s1, l, by simp [removeEntry, t1, hk, e1], hl', h1⟩
    · obtain ⟨s1, l1, e1, o1, h1⟩ := removeEntry_ok (key := key) l (L := entryB a ++ L) hl' (h.of_perm (by simp only [entriesB]; perm))
      refine ⟨s1, a :: l1, by simp [removeEntry, t1, hk, e1], ?_, h1.of_perm (by simp only [entriesB]; perm)⟩
      intro x hx
      rcases List.mem_cons.mp hx with rfl | hx
      · exact ho
      · exact o1 x hx

theorem reinsert_ok {P esc} : ∀ (l : List Entry) (a : Attrs) {s L}, okAttrs P a → okEntries P l →
    St P s (attrsB a ++ (entriesB l ++ L)) →
    ∃ s' a', reinsert esc s a l = some (s', a') ∧ okAttrs P a' ∧ St P s' (attrsB a' ++ (entriesB l ++ L))
  | [], a, s, L, ha, _, h => ⟨s, a, rfl, ha, h⟩
  | e :: l, a, s, L, ha, hl, h => by
    have ho := hl e (by simp)
    have t1 := h.touch ho.1 (by intro b hb; simp [entriesB, entryB, hb])
    obtain ⟨s1, a1, e1, o1, h1⟩ := setAttr_works (P := P) (esc := esc) (key := e.text) s a _ ha h
    have e1' : setAttr esc s a e.text = some (s1, a1) := e1
    obtain ⟨s2, a2, e2, o2, h2⟩ := reinsert_ok (esc := esc) l a1 (L := entryB e ++ L) o1 (fun x hx => hl x (by simp [hx])) (h1.of_perm (by simp only [entriesB]; perm))
    exact ⟨s2, a2, by simp [reinsert, t1, e1', e2], o2, h2.of_perm (by simp only [entriesB]; perm)⟩

theorem removeAttr_works {P esc key} : WorksA P (fun s a => removeAttr esc s a key) := by
  intro s a L ha h
  cases a with
  | list l =>
    obtain ⟨s1, l1, e1, o1, h1⟩ := removeList_ok (key := key) l ha h
    exact ⟨s1, .list l1, by simp [removeAttr, e1], o1, h1⟩
  | hash r l =>
    have t1 := h.touch ha.1 (by intro b hb; simp [attrsB, hb])
    obtain ⟨s1, l1, e1, o1, h1⟩ := removeEntry_ok (key := key) l (L := refB r ++ L) ha.2 (h.of_perm (by simp only [attrsB]; perm))
    by_cases h10 : l1.length = 10
    · obtain ⟨s2, a2, e2, o2, h2⟩ := reinsert_ok (esc := esc) l1 (.list []) (L := refB r ++ L) (by intro x hx; simp at hx) o1 (h1.of_perm (by simp only [attrsB, attrListB]; perm))
      obtain ⟨s3, e3, h3⟩ := freeHash_ok (L := attrsB a2 ++ L) ha.1 o1 (h2.of_perm (by perm))
      exact ⟨s3, a2, by simp [removeAttr, t1, e1, h10, e2, e3], o2, h3⟩
    · exact ⟨s1, .hash r l1, by simp [removeAttr, t1, e1, h10], ⟨ha.1, o1⟩, h1.of_perm (by simp only [attrsB]; perm)⟩

/-! Annotations. -/

theorem putEntry_ok {P new} (hn : okEntry P new) : ∀ (l : List Entry) {s L}, okEntries P l → St P s (entriesB l ++ entryB new ++ L) →
    ∃ s' l', putEntry s new l = some (s', l') ∧ okEntries P l' ∧ St P s' (entriesB l' ++ L)
  | [], s, L, _, h => ⟨s, [new], rfl, by intro x hx; simp at hx; subst hx; exact hn, h.of_perm (by simp only [entriesB]; perm)⟩
  | a :: l, s, L, hl, h => by
    have ho := hl a (by simp)
    have hl' : okEntries P l := fun x hx => hl x (by simp [hx])
    have t1 := h.touch ho.1 (by intro b hb; simp [entriesB, entryB, hb])
    by_cases hk : a.text = new.text
    · obtain ⟨s1, e1, h1⟩ := freeEntry_ok ho (h.of_perm (L' := entryB a ++ (entriesB (new :: l) ++ L)) (by simp only [entriesB]; perm))
      refine ⟨s1, new :: l, by simp [putEntry, t1, hk, e1], ?_, h1⟩
      intro x hx
      rcases List.mem_cons.mp hx with rfl | hx
      · exact hn
      · exact hl' x hx
    · obtain ⟨s1, l1, e1, o1, h1⟩ := putEntry_ok hn l (L := entryB a ++ L) hl' (h.of_perm (by simp only [entriesB]; perm))
      refine ⟨s1, a :: l1, by simp [putEntry, t1, hk, e1], ?_, h1.of_perm (by simp only [entriesB]; perm)⟩
      intro x hx
      rcases List.mem_cons.mp hx with rfl | hx
      · exact ho
      · exact o1 x hx

theorem allocAll_ok {P} : ∀ (k : Nat) {s L}, St P s L →
    St P (annotate.allocAll k s).1 (refsB (annotate.allocAll k s).2 ++ L) ∧ ∀ r ∈ (annotate.allocAll k s).2, okRef P false r
  | 0, s, L, h => ⟨h, by simp [annotate.allocAll]⟩
  | k + 1, s, L, h => by
    obtain ⟨h1, o1⟩ := h.alloc
    obtain ⟨h2, o2⟩ := allocAll_ok k h1
    refine ⟨h2.of_perm (by simp only [annotate.allocAll, refsB]; perm), ?_⟩
    intro r hr
    simp only [annotate.allocAll, List.mem_cons] at hr
    rcases hr with rfl | hr
    · exact o1
    · exact o2 r hr

theorem annotate_works {P key k} : Works P (· = .nil) (annotate key k) (fun _ => True) [] := by
  rintro s ⟨h, items⟩ L ⟨hh, hi⟩ - hs
  have t0 := touchSelf hh (hs.of_perm (L' := nodeB (.mk h items) ++ L) (by perm))
  -- the hash
  have hash : ∃ s0 r l, annotHash s h.annot = (s0, r, l) ∧
      okRef P false r ∧ okEntries P l ∧ St P s0 (refB r ++ entriesB l ++ (refB h.self ++ refB h.name ++ attrsB h.attrs ++ holderB h.holder ++ itemsB items ++ L)) := by
    cases ha : h.annot with
    | none =>
      obtain ⟨h1, o1⟩ := hs.alloc
      refine ⟨_, _, _, rfl, o1, by intro e he; simp at he, h1.of_perm ?_⟩
      simp only [nodeB, headB, ha, annotB, entriesB]; perm
    | some x =>
      have hk := hh.annot
      rw [ha] at hk
      refine ⟨_, _, _, rfl, hk.1, hk.2, hs.of_perm ?_⟩
      simp only [nodeB, headB, ha, annotB]; perm
  obtain ⟨s0, r, l, e0, or, ol, h0⟩ := hash
  have t1 := h0.touch or (by intro b hb; simp [hb])
  obtain ⟨h1, o1⟩ := h0.alloc
  obtain ⟨h2, o2⟩ := allocAll_ok k h1
  obtain ⟨s3, l3, e3, o3, h3⟩ := putEntry_ok (new := ⟨key, s0.alloc.2, true, (annotate.allocAll k s0.alloc.1).2⟩) ⟨o1, o2⟩ l
    (s := (annotate.allocAll k s0.alloc.1).1) (L := refB r ++ (refB h.self ++ refB h.name ++ attrsB h.attrs ++ holderB h.holder ++ itemsB items ++ L))
    ol (h2.of_perm (by simp only [entryB]; perm))
  refine ⟨s3, .mk { h with annot := some (r, l3) } items, .nil, ?_, ⟨⟨hh.self, hh.name, hh.attrs, ⟨or, o3⟩, hh.holder⟩, hi⟩, rfl, ?_, rfl⟩
  · simp only [annotate, t0, e0, t1, e3, Option.bind_eq_bind, Option.bind_some]
  · exact h3.of_perm (by simp only [nodeB, headB, annotB, itemsB]; perm)

/-! Items. -/

theorem newItem_ok {P o s L} (ho : okHolder P o) (hm : ∀ b ∈ holderB o, b ∈ L) (h : St P s L) :
    ∃ s' it, newItem s o = some (s', it) ∧ okItem P it ∧ St P s' (refB it.ref ++ L) := by
  cases o with
  | none => exact ⟨_, _, rfl, ⟨h.alloc.2, by simp⟩, h.alloc.1⟩
  | some it =>
    have t := h.touch ho.1 hm
    cases hd : it.doc with
    | none => exact ⟨_, _, by simp [newItem, t, hd]; exact ⟨rfl, rfl⟩, ⟨h.alloc.2, by simp⟩, h.alloc.1⟩
    | some d =>
      have hdp := ho.2 d hd
      have t2 := h.touchPool hdp
      exact ⟨s, ⟨.pool d, true, some d⟩, by simp [newItem, t, hd, t2], ⟨⟨rfl, hdp⟩, by simp [hdp]⟩, by simpa [refB] using h⟩

theorem hold_ok {P o n s L} (ho : okHolder P o) (hm : ∀ b ∈ holderB o, b ∈ L) (hn : okNode P n) (h : St P s (nodeB n ++ L)) :
    ∃ s' n', hold s o n = some (s', n') ∧ okNode P n' ∧ n'.head.holder.isSome ∧ St P s' (nodeB n' ++ L) := by
  cases n with
  | mk hd items =>
    obtain ⟨hh, hi⟩ := hn
    cases hq : hd.holder with
    | some it =>
      have hit : okItem P it := by have := hh.holder; rw [hq] at this; exact this
      have t := h.touch hit.1 (by intro b hb; simp [nodeB, headB, hq, holderB, hb])
      have hd' : ∃ d, docOf s o = some d ∧ ∀ e, d = some e → e ∈ P := by
        cases o with
        | none => exact ⟨none, rfl, by simp⟩
        | some p =>
          have tp := h.touch ho.1 (by intro b hb; simp [hm b hb])
          exact ⟨p.doc, by simp [docOf, tp], ho.2⟩
      obtain ⟨d, ed, hdp⟩ := hd'
      refine ⟨s, .mk { hd with holder := some { it with doc := d } } items, ?_, ⟨⟨hh.self, hh.name, hh.attrs, hh.annot, ⟨hit.1, hdp⟩⟩, hi⟩, rfl, ?_⟩
      · simp only [hold, hq, t, ed, Option.bind_eq_bind, Option.bind_some]
      · exact h.of_perm (by simp only [nodeB, headB, hq, holderB]; perm)
    | none =>
      obtain ⟨s1, it, e1, o1, h1⟩ := newItem_ok ho (L := nodeB (.mk hd items) ++ L) (by intro b hb; simp [hm b hb]) h
      refine ⟨s1, .mk { hd with holder := some it } items, by simp [hold, hq, e1], ⟨⟨hh.self, hh.name, hh.attrs, hh.annot, o1⟩, hi⟩, rfl, ?_⟩
      exact h1.of_perm (by simp only [nodeB, headB, hq, holderB]; perm)

theorem setChild_works {P c} (hc : okNode P c) : Works P (· = .nil) (setChild c) (fun _ => True) (nodeB c) := by
  rintro s ⟨h, items⟩ L ⟨hh, hi⟩ - hs
  have t0 := touchSelf hh (hs.of_perm (L' := nodeB (.mk h items) ++ (nodeB c ++ L)) (by perm))
  obtain ⟨s1, c1, e1, o1, i1, h1⟩ := hold_ok hh.holder (L := nodeB (.mk h items) ++ L) (by intro b hb; simp [nodeB, headB, hb]) hc (hs.of_perm (by perm))
  refine ⟨s1, .mk h (items.append (.node c1 .nil)), .nil, by simp [setChild, t0, e1], ⟨hh, (okItems_append _ _).mpr ⟨hi, o1, i1, trivial⟩⟩, rfl, ?_, rfl⟩
  exact h1.of_perm (by simp only [nodeB, itemsB_append, itemsB]; perm)

theorem setAfter_works {P c i} (hc : okNode P c) : Works P (· = .nil) (setAfter i c) (fun _ => True) (nodeB c) := by
  rintro s ⟨h, items⟩ L ⟨hh, hi⟩ - hs
  have t0 := touchSelf hh (hs.of_perm (L' := nodeB (.mk h items) ++ (nodeB c ++ L)) (by perm))
  obtain ⟨s1, c1, e1, o1, i1, h1⟩ := hold_ok hh.holder (L := nodeB (.mk h items) ++ L) (by intro b hb; simp [nodeB, headB, hb]) hc (hs.of_perm (by perm))
  refine ⟨s1, .mk h (items.insertAfter i (.node c1 .nil)), .nil, by simp [setAfter, t0, e1], ⟨hh, (okItems_insertAfter _ _ _).mpr ⟨hi, o1, i1, trivial⟩⟩, rfl, ?_, rfl⟩
  have hp := itemsB_insertAfter items i (.node c1 .nil)
  refine h1.of_perm ?_
  have : (nodeB (.mk h (items.insertAfter i (.node c1 .nil)))).Perm (headB h ++ (itemsB items ++ itemsB (.node c1 .nil))) := by
    simp only [nodeB]; exact hp.append_left _
  refine List.Perm.trans ?_ ((this.append_right _).append_right _).symm
  simp only [nodeB, itemsB]; perm

theorem setText_works {P k} : Works P (· = .nil) (setText k) (fun _ => True) [] := by
  rintro s ⟨h, items⟩ L ⟨hh, hi⟩ - hs
  have t0 := touchSelf hh (hs.of_perm (L' := nodeB (.mk h items) ++ L) (by perm))
  obtain ⟨h1, o1⟩ := hs.alloc
  obtain ⟨h2, o2⟩ := h1.alloc
  obtain ⟨s3, it, e3, o3, h3⟩ := newItem_ok hh.holder (by intro b hb; simp [nodeB, headB, hb]) h2
  refine ⟨s3, .mk h (items.append (.leaf (.text k it s.alloc.2 s.alloc.1.alloc.2 false) .nil)), .nil, by simp [setText, t0, e3], ⟨hh, (okItems_append _ _).mpr ⟨hi, ⟨o3, o1, o2⟩, trivial⟩⟩, rfl, ?_, rfl⟩
  exact h3.of_perm (by simp only [nodeB, itemsB_append, itemsB, leafB]; perm)

theorem setTextFactory_works {P k d} (hd : d ∈ P) : Works P (· = .nil) (setTextFactory k d) (fun _ => True) [] := by
  rintro s ⟨h, items⟩ L ⟨hh, hi⟩ - hs
  have t0 := touchSelf hh (hs.of_perm (L' := nodeB (.mk h items) ++ L) (by perm))
  have t1 := hs.touchPool hd
  obtain ⟨s3, it, e3, o3, h3⟩ := newItem_ok hh.holder (by intro b hb; simp [nodeB, headB, hb]) hs
  refine ⟨s3, .mk h (items.append (.leaf (.text k it (.pool d) (.pool d) true) .nil)), .nil, by simp [setTextFactory, t0, t1, e3], ⟨hh, (okItems_append _ _).mpr ⟨hi, ⟨o3, ⟨rfl, hd⟩, ⟨rfl, hd⟩⟩, trivial⟩⟩, rfl, ?_, rfl⟩
  exact h3.of_perm (by simp only [nodeB, itemsB_append, itemsB, leafB, refB]; perm)

theorem newPi_ok {P c s L} (h : St P s L) : okPi P (newPi s c).2 ∧ St P (newPi s c).1 (piB (newPi s c).2 ++ L) := by
  obtain ⟨h1, o1⟩ := h.alloc
  obtain ⟨h2, o2⟩ := h1.alloc
  cases c with
  | false =>
    refine ⟨⟨o1, o2, trivial⟩, h2.of_perm ?_⟩
    simp only [newPi, Bool.false_eq_true, if_false, piB, optB]; perm
  | true =>
    obtain ⟨h3, o3⟩ := h2.alloc
    refine ⟨⟨o1, o2, o3⟩, h3.of_perm ?_⟩
    simp only [newPi, if_true, piB, optB]; perm

theorem addPi_works {P c} : Works P (· = .nil) (addPi c) (fun _ => True) [] := by
  rintro s ⟨h, items⟩ L ⟨hh, hi⟩ - hs
  have t0 := touchSelf hh (hs.of_perm (L' := nodeB (.mk h items) ++ L) (by perm))
  obtain ⟨o1, h1⟩ := newPi_ok (c := c) hs
  obtain ⟨s3, it, e3, o3, h3⟩ := newItem_ok hh.holder (by intro b hb; simp [nodeB, headB, hb]) h1
  refine ⟨s3, .mk h (items.append (.leaf (.pi it (newPi s c).2) .nil)), .nil, by simp [addPi, t0, e3], ⟨hh, (okItems_append _ _).mpr ⟨hi, ⟨o3, o1⟩, trivial⟩⟩, rfl, ?_, rfl⟩
  exact h3.of_perm (by simp only [nodeB, itemsB_append, itemsB, leafB]; perm)

theorem takeItem_works {P i} : Works P (fun o => okOut P o ∧ single o) (takeItem i) (fun n => ∃ x, n.items.at? i = some x) [] := by
  rintro s ⟨h, items⟩ L ⟨hh, hi⟩ ⟨x, hx⟩ hs
  have t0 := touchSelf hh (hs.of_perm (L' := nodeB (.mk h items) ++ L) (by perm))
  have hx' : items.at? i = some x := hx
  obtain ⟨oe, ox⟩ := okItems_erase items i hx' hi
  have hp := itemsB_erase items i hx'
  have hs' : St P s (headB h ++ (itemsB (items.erase i) ++ itemsB x) ++ L) := by
    refine hs.of_perm ?_
    simp only [nodeB, List.append_nil]
    exact (hp.append_left _).append_right _
  refine ⟨s, .mk h (items.erase i), x, ?_, ⟨hh, oe⟩, ⟨okOut_of ox, single_at _ _ hx'⟩, hs'.of_perm (by simp only [nodeB]; perm), rfl⟩
  have hmem : ∀ b ∈ itemsB x, b ∈ headB h ++ (itemsB (items.erase i) ++ itemsB x) ++ L := by
    intro b hb; simp [hb]
  simp only [takeItem, t0, hx', Option.bind_eq_bind, Option.bind_some]
  match x, ox, hmem with
  | .nil, _, _ => rfl
  | .node (.mk nh ni) r, ox, hmem =>
    obtain ⟨it, hit⟩ := Option.isSome_iff_exists.mp ox.2.1
    have hit' : nh.holder = some it := hit
    have ho : okItem P it := by have := ox.1.1.holder; rw [hit'] at this; exact this
    have t := hs'.touch ho.1 (by intro b hb; apply hmem; simp [itemsB, nodeB, headB, hit', holderB, hb])
    cases hd : it.doc with
    | none => simp [Node.head, hit', t, hd]
    | some d => simp [Node.head, hit', t, hd, hs'.touchPool (ho.2 d hd)]
  | .leaf (.text k it c tt f) r, ox, hmem =>
    have t := hs'.touch ox.1.1.1 (by intro b hb; apply hmem; simp [itemsB, leafB, hb])
    simp [t]
  | .leaf (.pi it p) r, ox, hmem =>
    have t := hs'.touch ox.1.1.1 (by intro b hb; apply hmem; simp [itemsB, leafB, hb])
    simp [t]

theorem takeAll_works {P} : Works P (okItems P) takeAll (fun _ => True) [] := by
  rintro s ⟨h, items⟩ L ⟨hh, hi⟩ - hs
  have t0 := touchSelf hh (hs.of_perm (L' := nodeB (.mk h items) ++ L) (by perm))
  exact ⟨s, .mk h .nil, items, by simp [takeAll, t0], ⟨hh, trivial⟩, hi, hs.of_perm (by simp only [nodeB, itemsB]; perm), rfl⟩

theorem giveAll_works {P new} (hn : okItems P new) : Works P (· = .nil) (giveAll new) (fun _ => True) (itemsB new) := by
  rintro s ⟨h, items⟩ L ⟨hh, hi⟩ - hs
  have t0 := touchSelf hh (hs.of_perm (L' := nodeB (.mk h items) ++ (itemsB new ++ L)) (by perm))
  exact ⟨s, .mk h (items.append new), .nil, by simp [giveAll, t0], ⟨hh, (okItems_append _ _).mpr ⟨hi, hn⟩⟩, rfl, hs.of_perm (by simp only [nodeB, itemsB_append, itemsB]; perm), rfl⟩

theorem giveAllAfter_works {P i new} (hn : okItems P new) : Works P (· = .nil) (giveAllAfter i new) (fun _ => True) (itemsB new) := by
  rintro s ⟨h, items⟩ L ⟨hh, hi⟩ - hs
  have t0 := touchSelf hh (hs.of_perm (L' := nodeB (.mk h items) ++ (itemsB new ++ L)) (by perm))
  refine ⟨s, .mk h (items.insertAfter i new), .nil, by simp [giveAllAfter, t0], ⟨hh, (okItems_insertAfter _ _ _).mpr ⟨hi, hn⟩⟩, rfl, ?_, rfl⟩
  refine hs.of_perm ?_
  have : (nodeB (.mk h (items.insertAfter i new))).Perm (headB h ++ (itemsB items ++ itemsB new)) := by
    simp only [nodeB]; exact (itemsB_insertAfter items i new).append_left _
  refine List.Perm.trans ?_ ((this.append_right _).append_right _).symm
  simp only [nodeB, itemsB]; perm

theorem emptyItems_ok {P} : ∀ (l : Items) {s L}, okItems P l → St P s (itemsB l ++ L) →
    ∃ s' l', emptyItems s l = some (s', l') ∧ okItems P l' ∧ St P s' (itemsB l' ++ L)
  | .nil, s, L, _, h => ⟨s, .nil, by simp [emptyItems], trivial, h⟩
  | .node n next, s, L, ho, h => by
    obtain ⟨s1, l1, e1, o1, h1⟩ := emptyItems_ok next (L := nodeB n ++ L) ho.2.2 (h.of_perm (by simp only [itemsB]; perm))
    exact ⟨s1, .node n l1, by simp [emptyItems, e1], ⟨ho.1, ho.2.1, o1⟩, h1.of_perm (by simp only [itemsB]; perm)⟩
  | .leaf (.text .content it c r f) next, s, L, ho, h => by
    obtain ⟨s0, e0, h0⟩ := freeLeaf_ok ho.1 (h.of_perm (L' := leafB (.text .content it c r f) ++ (itemsB next ++ L)) (by simp only [itemsB]; perm))
    obtain ⟨s1, l1, e1, o1, h1⟩ := emptyItems_ok next ho.2 h0
    exact ⟨s1, l1, by simp [emptyItems, e0, e1], o1, h1⟩
  | .leaf (.text .cdata it c r f) next, s, L, ho, h => by
    obtain ⟨s0, e0, h0⟩ := freeLeaf_ok ho.1 (h.of_perm (L' := leafB (.text .cdata it c r f) ++ (itemsB next ++ L)) (by simp only [itemsB]; perm))
    obtain ⟨s1, l1, e1, o1, h1⟩ := emptyItems_ok next ho.2 h0
    exact ⟨s1, l1, by simp [emptyItems, e0, e1], o1, h1⟩
  | .leaf (.text .comment it c r f) next, s, L, ho, h => by
    obtain ⟨s1, l1, e1, o1, h1⟩ := emptyItems_ok next (L := leafB (.text .comment it c r f) ++ L) ho.2 (h.of_perm (by simp only [itemsB]; perm))
    exact ⟨s1, .leaf (.text .comment it c r f) l1, by simp [emptyItems, e1], ⟨ho.1, o1⟩, h1.of_perm (by simp only [itemsB]; perm)⟩
  | .leaf (.pi it p) next, s, L, ho, h => by
    obtain ⟨s1, l1, e1, o1, h1⟩ := emptyItems_ok next (L := leafB (.pi it p) ++ L) ho.2 (h.of_perm (by simp only [itemsB]; perm))
    exact ⟨s1, .leaf (.pi it p) l1, by simp [emptyItems, e1], ⟨ho.1, o1⟩, h1.of_perm (by simp only [itemsB]; perm)⟩

theorem setIsEmpty_works {P} : Works P (· = .nil) setIsEmpty (fun _ => True) [] := by
  rintro s ⟨h, items⟩ L ⟨hh, hi⟩ - hs
  have t0 := touchSelf hh (hs.of_perm (L' := nodeB (.mk h items) ++ L) (by perm))
  obtain ⟨s1, l1, e1, o1, h1⟩ := emptyItems_ok items (L := headB h ++ L) hi (hs.of_perm (by simp only [nodeB]; perm))
  exact ⟨s1, .mk h l1, .nil, by simp [setIsEmpty, t0, e1], ⟨hh, o1⟩, rfl, h1.of_perm (by simp only [nodeB, itemsB]; perm), rfl⟩

/-- The new node takes the item of the old one; it has no block for an item of its own. -/
theorem swapItem_works {P i new} (hn : okNode P new) (hni : holderB new.head.holder = []) :
    Works P (fun o => okOut P o ∧ single o) (swapItem i new) (fun n => ∃ m r, n.items.at? i = some (.node m r)) (nodeB new) := by
  rintro s ⟨h, items⟩ L ⟨hh, hi⟩ ⟨⟨oh, oi⟩, r, hx⟩ hs
  have hx' : items.at? i = some (.node (.mk oh oi) r) := hx
  have t0 := touchSelf hh (hs.of_perm (L' := nodeB (.mk h items) ++ (nodeB new ++ L)) (by perm))
  obtain ⟨oe, ox⟩ := okItems_erase items i hx' hi
  have hp := itemsB_erase items i hx'
  obtain ⟨it, hit⟩ := Option.isSome_iff_exists.mp ox.2.1
  have hit' : oh.holder = some it := hit
  have ho : okItem P it := by have := ox.1.1.holder; rw [hit'] at this; exact this
  have hr : itemsB r = [] ∧ okItems P r := by
    have : ∀ (a : Items) (i : Nat) {n r}, a.at? i = some (.node n r) → r = .nil := by
      intro a
      induction a using Items.rec (motive_1 := fun _ => True) with
      | mk => trivial
      | nil => intro i n r h; simp [Items.at?] at h
      | node m nx _ ih =>
        intro i n r h
        cases i with
        | zero => simp [Items.at?] at h; exact h.2.symm
        | succ i => exact ih i (by simpa [Items.at?] using h)
      | leaf m nx ih =>
        intro i n r h
        cases i with
        | zero => simp [Items.at?] at h
        | succ i => exact ih i (by simpa [Items.at?] using h)
    rw [this items i hx']; exact ⟨rfl, trivial⟩
  have hs' : St P s (headB h ++ (itemsB (items.erase i) ++ (headB oh ++ itemsB oi)) ++ nodeB new ++ L) := by
    refine hs.of_perm ?_
    simp only [nodeB]
    refine (((hp.append_left (headB h)).append_right _).append_right _).trans ?_
    simp only [itemsB, nodeB, hr.1]; perm
  have t1 := hs'.touch ho.1 (by intro b hb; simp [headB, hit', holderB, hb])
  cases new with
  | mk nh ni =>
    have hni' : holderB nh.holder = [] := hni
    have t2 := hs'.touch hn.1.self (by intro b hb; simp [nodeB, headB, hb])
    have onew : okNode P (Node.withHead (fun x => { x with holder := some it }) (.mk nh ni)) :=
      ⟨⟨hn.1.self, hn.1.name, hn.1.attrs, hn.1.annot, ho⟩, hn.2⟩
    have oold : okNode P (.mk { oh with holder := none } oi) :=
      ⟨⟨ox.1.1.self, ox.1.1.name, ox.1.1.attrs, ox.1.1.annot, trivial⟩, ox.1.2⟩
    have hfin : ∀ its : Items, (itemsB its).Perm (itemsB (items.erase i) ++ nodeB (Node.withHead (fun x => { x with holder := some it }) (.mk nh ni))) →
        St P s (nodeB (.mk h its) ++ nodeB (.mk { oh with holder := none } oi) ++ L) := by
      intro its hq
      refine hs'.of_perm ?_
      have : (nodeB (.mk h its)).Perm (headB h ++ (itemsB (items.erase i) ++ nodeB (Node.withHead (fun x => { x with holder := some it }) (.mk nh ni)))) := by
        simp only [nodeB]; exact hq.append_left _
      refine List.Perm.trans ?_ ((this.append_right _).append_right _).symm
      have b1 : holderB oh.holder = refB it.ref := by rw [hit']; rfl
      have b2 : holderB (some it) = refB it.ref := rfl
      have b3 : holderB none = [] := rfl
      simp only [nodeB, Node.withHead, headB, b1, b2, b3, hni']; perm
    have t2' : s.touch (Node.mk nh ni).head.self = some () := t2
    cases i with
    | zero =>
      refine ⟨s, .mk h (Items.append (.node (Node.withHead (fun x => { x with holder := some it }) (.mk nh ni)) .nil) (items.erase 0)),
        .node (.mk { oh with holder := none } oi) .nil, by simp [swapItem, t0, hx', hit', t1, t2'], ⟨hh, (okItems_append _ _).mpr ⟨⟨onew, rfl, trivial⟩, oe⟩⟩, ?_, ?_, rfl⟩
      · exact ⟨⟨oold, trivial⟩, rfl⟩
      · have := hfin (Items.append (.node (Node.withHead (fun x => { x with holder := some it }) (.mk nh ni)) .nil) (items.erase 0)) (by
          rw [itemsB_append]; simp only [itemsB]; perm)
        exact this.of_perm (by simp only [itemsB]; perm)
    | succ j =>
      refine ⟨s, .mk h ((items.erase (j + 1)).insertAfter j (.node (Node.withHead (fun x => { x with holder := some it }) (.mk nh ni)) .nil)),
        .node (.mk { oh with holder := none } oi) .nil, by simp [swapItem, t0, hx', hit', t1, t2'], ⟨hh, (okItems_insertAfter _ _ _).mpr ⟨oe, onew, rfl, trivial⟩⟩, ?_, ?_, rfl⟩
      · exact ⟨⟨oold, trivial⟩, rfl⟩
      · have := hfin ((items.erase (j + 1)).insertAfter j (.node (Node.withHead (fun x => { x with holder := some it }) (.mk nh ni)) .nil)) (by
          refine (itemsB_insertAfter _ _ _).trans ?_
          simp only [itemsB]; perm)
        exact this.of_perm (by simp only [itemsB]; perm)
/-! Copies. -/

theorem copyAttrList_ok {P} : ∀ (l : List AttrC) {s L}, okAttrList P l → (∀ b ∈ attrListB l, b ∈ L) → St P s L →
    ∃ s' l', copyAttrList s l = some (s', l') ∧ okAttrList P l' ∧ St P s' (attrListB l' ++ L)
  | [], s, L, _, _, h => ⟨s, [], rfl, by intro x hx; simp at hx, h⟩
  | a :: l, s, L, hl, hm, h => by
    obtain ⟨oc, on, ov⟩ := hl a (by simp)
    obtain ⟨h1, o1⟩ := h.alloc
    have t1 := h1.touch oc (by intro b hb; simp [hm b (by simp [attrListB, attrB, hb])])
    have t2 := h1.touch on (by intro b hb; simp [hm b (by simp [attrListB, attrB, hb])])
    obtain ⟨h2, o2⟩ := h1.alloc
    have t3 := h2.touch ov (by intro b hb; simp [hm b (by simp [attrListB, attrB, hb])])
    obtain ⟨h3, o3⟩ := h2.alloc
    obtain ⟨s4, l4, e4, o4, h4⟩ := copyAttrList_ok l (fun x hx => hl x (by simp [hx])) (by intro b hb; simp [hm b (by simp [attrListB, hb])]) h3
    refine ⟨s4, ⟨a.key, s.alloc.2, s.alloc.1.alloc.2, s.alloc.1.alloc.1.alloc.2, false⟩ :: l4, by simp [copyAttrList, t1, t2, t3, e4], ?_, h4.of_perm (by simp only [attrListB, attrB]; perm)⟩
    intro x hx
    rcases List.mem_cons.mp hx with rfl | hx
    · exact ⟨o1, o2, o3⟩
    · exact o4 x hx

theorem copyEntries_ok {P} : ∀ (l : List Entry) {s L}, okEntries P l → (∀ b ∈ entriesB l, b ∈ L) → St P s L →
    ∃ s' l', copyEntries s l = some (s', l') ∧ okEntries P l' ∧ St P s' (entriesB l' ++ L)
  | [], s, L, _, _, h => ⟨s, [], rfl, by intro x hx; simp at hx, h⟩
  | a :: l, s, L, hl, hm, h => by
    have t1 := h.touch (hl a (by simp)).1 (by intro b hb; simp [hm b (by simp [entriesB, entryB, hb])])
    obtain ⟨h1, o1⟩ := h.alloc
    obtain ⟨h2, o2⟩ := h1.alloc
    obtain ⟨s4, l4, e4, o4, h4⟩ := copyEntries_ok l (fun x hx => hl x (by simp [hx])) (by intro b hb; simp [hm b (by simp [entriesB, hb])]) h2
    refine ⟨s4, ⟨a.text, s.alloc.2, true, [s.alloc.1.alloc.2]⟩ :: l4, by simp [copyEntries, t1, e4], ?_, h4.of_perm (by simp only [entriesB, entryB, refsB]; perm)⟩
    intro x hx
    rcases List.mem_cons.mp hx with rfl | hx
    · exact ⟨o1, by intro r hr; simp at hr; subst hr; exact o2⟩
    · exact o4 x hx

theorem copyAttrs_ok {P a s L} (ha : okAttrs P a) (hm : ∀ b ∈ attrsB a, b ∈ L) (h : St P s L) :
    ∃ s' a', copyAttrs s a = some (s', a') ∧ okAttrs P a' ∧ St P s' (attrsB a' ++ L) := by
  cases a with
  | list l =>
    obtain ⟨s1, l1, e1, o1, h1⟩ := copyAttrList_ok l ha hm h
    exact ⟨s1, .list l1, by simp [copyAttrs, e1], o1, h1⟩
  | hash r l =>
    have t1 := h.touch ha.1 (by intro b hb; exact hm b (by simp [attrsB, hb]))
    obtain ⟨h0, o0⟩ := h.alloc
    obtain ⟨s1, l1, e1, o1, h1⟩ := copyEntries_ok l ha.2 (by intro b hb; simp [hm b (by simp [attrsB, hb])]) h0
    exact ⟨s1, .hash s.alloc.2 l1, by simp [copyAttrs, t1, e1], ⟨o0, o1⟩, h1.of_perm (by simp only [attrsB]; perm)⟩

theorem copyLeaf_ok {P l s L} (hl : okLeaf P l) (hm : ∀ b ∈ leafB l, b ∈ L) (h : St P s L) :
    ∃ s' l', copyLeaf s l = some (s', l') ∧ okLeaf P l' ∧ St P s' (leafB l' ++ L) := by
  cases l with
  | text k it c t f =>
    have t1 := h.touch hl.1.1 (by intro b hb; exact hm b (by simp [leafB, hb]))
    obtain ⟨h0, o0⟩ := h.alloc
    have t2 := h0.touch hl.2.1 (by intro b hb; simp [hm b (by simp [leafB, hb])])
    have t3 := h0.touch hl.2.2 (by intro b hb; simp [hm b (by simp [leafB, hb])])
    obtain ⟨h1, o1⟩ := h0.alloc
    obtain ⟨h2, o2⟩ := h1.alloc
    exact ⟨s.alloc.1.alloc.1.alloc.1, .text k ⟨s.alloc.2, false, none⟩ s.alloc.1.alloc.2 s.alloc.1.alloc.1.alloc.2 false, by simp [copyLeaf, t1, t2, t3],
      ⟨⟨o0, by simp⟩, o1, o2⟩, h2.of_perm (by simp only [leafB]; perm)⟩
  | pi it p =>
    have t1 := h.touch hl.1.1 (by intro b hb; exact hm b (by simp [leafB, hb]))
    obtain ⟨h0, o0⟩ := h.alloc
    have t2 := h0.touch hl.2.1 (by intro b hb; simp [hm b (by simp [leafB, piB, hb])])
    have t3 := h0.touch hl.2.2.1 (by intro b hb; simp [hm b (by simp [leafB, piB, hb])])
    obtain ⟨o1, h1⟩ := newPi_ok (c := p.content.isSome) h0
    exact ⟨(newPi s.alloc.1 p.content.isSome).1, .pi ⟨s.alloc.2, false, none⟩ (newPi s.alloc.1 p.content.isSome).2, by simp [copyLeaf, t1, t2, t3],
      ⟨⟨o0, by simp⟩, o1⟩, h1.of_perm (by simp only [leafB]; perm)⟩

mutual
theorem copyNode_ok {P} : ∀ (n : Node) (attrs childs : Bool) {s L}, okNode P n → (∀ b ∈ nodeB n, b ∈ L) → St P s L →
    ∃ s' n', copyNode attrs childs s n = some (s', n') ∧ okNode P n' ∧ n'.head.holder = none ∧ St P s' (nodeB n' ++ L)
  | .mk h items, attrs, childs, s, L, hn, hm, hs => by
    obtain ⟨hh, hi⟩ := hn
    have t1 := hs.touch hh.self (by intro b hb; exact hm b (by simp [nodeB, headB, hb]))
    have t2 := hs.touch hh.name (by intro b hb; exact hm b (by simp [nodeB, headB, hb]))
    obtain ⟨h0, o0⟩ := hs.alloc
    obtain ⟨h1, o1⟩ := h0.alloc
    have ha : ∃ s' a, (if attrs then copyAttrs s.alloc.1.alloc.1 h.attrs else some (s.alloc.1.alloc.1, .list [])) = some (s', a) ∧ okAttrs P a ∧
        St P s' (attrsB a ++ (refB s.alloc.1.alloc.2 ++ (refB s.alloc.2 ++ L))) := by
      cases attrs with
      | false => exact ⟨_, .list [], by simp; rfl, by intro x hx; simp at hx, by simpa [attrsB, attrListB] using h1⟩
      | true =>
        obtain ⟨s2, a2, e2, o2, h2⟩ := copyAttrs_ok hh.attrs (by intro b hb; simp [hm b (by simp [nodeB, headB, hb])]) h1
        exact ⟨s2, a2, by simpa using e2, o2, h2⟩
    obtain ⟨s2, a2, e2, o2, h2⟩ := ha
    have hc : ∃ s' l, (if childs then copyItems s2 items else some (s2, .nil)) = some (s', l) ∧ okItems P l ∧
        St P s' (itemsB l ++ (attrsB a2 ++ (refB s.alloc.1.alloc.2 ++ (refB s.alloc.2 ++ L)))) := by
      cases childs with
      | false => exact ⟨s2, .nil, by simp, trivial, h2⟩
      | true =>
        obtain ⟨s3, l3, e3, o3, h3⟩ := copyItems_ok items hi (by intro b hb; simp [hm b (by simp [nodeB, hb])]) h2
        exact ⟨s3, l3, by simpa using e3, o3, h3⟩
    obtain ⟨s3, l3, e3, o3, h3⟩ := hc
    refine ⟨s3, .mk ⟨s.alloc.2, false, s.alloc.1.alloc.2, false, a2, none, none⟩ l3, ?_, ⟨⟨o0, o1, o2, trivial, trivial⟩, o3⟩, rfl, h3.of_perm (by simp only [nodeB, headB, annotB, holderB]; perm)⟩
    cases attrs <;> cases childs <;> simp at e2 e3 <;> (try obtain ⟨rfl, rfl⟩ := e2) <;> (try obtain ⟨rfl, rfl⟩ := e3) <;> simp [copyNode, t1, t2, *]
theorem copyItems_ok {P} : ∀ (l : Items) {s L}, okItems P l → (∀ b ∈ itemsB l, b ∈ L) → St P s L →
    ∃ s' l', copyItems s l = some (s', l') ∧ okItems P l' ∧ St P s' (itemsB l' ++ L)
  | .nil, s, L, _, _, h => ⟨s, .nil, by simp [copyItems], trivial, h⟩
  | .node (.mk nh ni) next, s, L, ho, hm, h => by
    obtain ⟨it, hit⟩ := Option.isSome_iff_exists.mp ho.2.1
    have hit' : nh.holder = some it := hit
    have hoi : okItem P it := by have := ho.1.1.holder; rw [hit'] at this; exact this
    have t := h.touch hoi.1 (by intro b hb; exact hm b (by simp [itemsB, nodeB, headB, hit', holderB, hb]))
    obtain ⟨h0, o0⟩ := h.alloc
    obtain ⟨s1, c, e1, o1, hc, h1⟩ := copyNode_ok (.mk nh ni) true true ho.1 (by intro b hb; simp [hm b (by simp [itemsB, hb])]) h0
    obtain ⟨s2, l2, e2, o2, h2⟩ := copyItems_ok next ho.2.2 (by intro b hb; simp [hm b (by simp [itemsB, hb])]) h1
    cases c with
    | mk ch ci =>
      have hc' : ch.holder = none := hc
      refine ⟨s2, .node (Node.withHead (fun x => { x with holder := some ⟨s.alloc.2, false, none⟩ }) (.mk ch ci)) l2, by simp [copyItems, Node.head, hit', t, e1, e2],
        ⟨⟨⟨o1.1.self, o1.1.name, o1.1.attrs, o1.1.annot, ⟨o0, by simp⟩⟩, o1.2⟩, rfl, o2⟩, h2.of_perm ?_⟩
      have b1 : holderB ch.holder = [] := by rw [hc']; rfl
      have b2 : holderB (some ⟨s.alloc.2, false, none⟩) = refB s.alloc.2 := rfl
      simp only [itemsB, nodeB, Node.withHead, headB, b1, b2]; perm
  | .leaf l next, s, L, ho, hm, h => by
    obtain ⟨s1, l1, e1, o1, h1⟩ := copyLeaf_ok ho.1 (by intro b hb; exact hm b (by simp [itemsB, hb])) h
    obtain ⟨s2, l2, e2, o2, h2⟩ := copyItems_ok next ho.2 (by intro b hb; simp [hm b (by simp [itemsB, hb])]) h1
    exact ⟨s2, .leaf l1 l2, by simp [copyItems, e1, e2], ⟨o1, o2⟩, h2.of_perm (by simp only [itemsB]; perm)⟩
end

/-! Parsing. -/

theorem parseAttrs_ok {P d} (hd : d ∈ P) : ∀ (l : List (List Char)) (a : Attrs) {s L}, okAttrs P a → St P s (attrsB a ++ L) →
    ∃ s' a', parseAttrs d s a l = some (s', a') ∧ okAttrs P a' ∧ St P s' (attrsB a' ++ L)
  | [], a, s, L, ha, h => ⟨s, a, rfl, ha, h⟩
  | k :: l, a, s, L, ha, h => by
    obtain ⟨s1, a1, e1, o1, h1⟩ := setAttrFactory_ok (P := P) (key := k) hd s a L ha h
    have e1' : setAttrFactory s d a k = some (s1, a1) := e1
    obtain ⟨s2, a2, e2, o2, h2⟩ := parseAttrs_ok hd l a1 o1 h1
    exact ⟨s2, a2, by simp [parseAttrs, e1', e2], o2, h2⟩

theorem parseLeaf_works {P d} (hd : d ∈ P) (l : SrcLeaf) : Works P (· = .nil) (parseLeaf d · l) (fun _ => True) [] := by
  cases l with
  | text k =>
    cases k with
    | comment => exact setText_works
    | content => exact setTextFactory_works hd
    | cdata => exact setTextFactory_works hd
  | pi c => exact addPi_works

mutual
theorem parseNode_ok {P d} (hd : d ∈ P) : ∀ (src : Src) {s L}, St P s L →
    ∃ s' n, parseNode d s src = some (s', n) ∧ okNode P n ∧ n.head.holder.isSome ∧ St P s' (nodeB n ++ L)
  | .mk attrs items, s, L, h => by
    have t := h.touchPool hd
    obtain ⟨s1, a1, e1, o1, h1⟩ := parseAttrs_ok hd attrs (.list []) (L := L) (by intro x hx; simp at hx) h
    obtain ⟨s2, n2, e2, o2, i2, h2⟩ := parseItems_ok hd items (.mk ⟨.pool d, true, .pool d, true, a1, none, some ⟨.pool d, true, some d⟩⟩ .nil) (s := s1) (L := L)
      ⟨⟨⟨rfl, hd⟩, ⟨rfl, hd⟩, o1, trivial, ⟨⟨rfl, hd⟩, by simp [hd]⟩⟩, trivial⟩ rfl
      (h1.of_perm (by simp only [nodeB, headB, annotB, holderB, itemsB, refB]; perm))
    exact ⟨s2, n2, by simp [parseNode, t, e1, e2], o2, i2, h2⟩
theorem parseItems_ok {P d} (hd : d ∈ P) : ∀ (src : SrcItems) (n : Node) {s L}, okNode P n → n.head.holder.isSome → St P s (nodeB n ++ L) →
    ∃ s' n', parseItems d s n src = some (s', n') ∧ okNode P n' ∧ n'.head.holder.isSome ∧ St P s' (nodeB n' ++ L)
  | .nil, n, s, L, hn, hi, h => ⟨s, n, by simp [parseItems], hn, hi, h⟩
  | .node c next, n, s, L, hn, hi, h => by
    obtain ⟨s1, c1, e1, o1, i1, h1⟩ := parseNode_ok hd c h
    obtain ⟨s2, n2, out, e2, o2, hout, h2, i2⟩ := setChild_works o1 s1 n L hn trivial (h1.of_perm (by perm))
    subst hout
    obtain ⟨s3, n3, e3, o3, i3, h3⟩ := parseItems_ok hd next n2 (s := s2) (L := L) o2 (by rw [i2]; exact hi) (h2.of_perm (by simp only [itemsB]; perm))
    exact ⟨s3, n3, by simp [parseItems, e1, e2, e3], o3, i3, h3⟩
  | .leaf l next, n, s, L, hn, hi, h => by
    obtain ⟨s2, n2, out, e2, o2, hout, h2, i2⟩ := parseLeaf_works hd l s n L hn trivial (h.of_perm (by perm))
    have e2' : parseLeaf d s l n = some (s2, n2, out) := e2
    subst hout
    obtain ⟨s3, n3, e3, o3, i3, h3⟩ := parseItems_ok hd next n2 (s := s2) (L := L) o2 (by rw [i2]; exact hi) (h2.of_perm (by simp only [itemsB]; perm))
    exact ⟨s3, n3, by simp [parseItems, e2', e3], o3, i3, h3⟩
end

theorem setDoc_ok {P d n s L} (hd : d ∈ P) (hn : okNode P n) (h : St P s (nodeB n ++ L)) :
    ∃ s' n', setDoc s d n = some (s', n') ∧ okNode P n' ∧ St P s' (nodeB n' ++ L) := by
  cases n with
  | mk nh ni =>
    obtain ⟨hh, hi⟩ := hn
    have t0 := touchSelf hh h
    cases hq : nh.holder with
    | some it =>
      have hit : okItem P it := by have := hh.holder; rw [hq] at this; exact this
      have t := h.touch hit.1 (by intro b hb; simp [nodeB, headB, hq, holderB, hb])
      refine ⟨s, .mk { nh with holder := some { it with doc := some d } } ni, by simp [setDoc, t0, hq, t], ⟨⟨hh.self, hh.name, hh.attrs, hh.annot, ⟨hit.1, by simp [hd]⟩⟩, hi⟩, ?_⟩
      exact h.of_perm (by simp only [nodeB, headB, hq, holderB]; perm)
    | none =>
      have t := h.touchPool hd
      refine ⟨s, .mk { nh with holder := some ⟨.pool d, true, some d⟩ } ni, by simp [setDoc, t0, hq, t], ⟨⟨hh.self, hh.name, hh.attrs, hh.annot, ⟨⟨rfl, hd⟩, by simp [hd]⟩⟩, hi⟩, ?_⟩
      exact h.of_perm (by simp only [nodeB, headB, hq, holderB, refB]; perm)

/-! A call on the node at the end of a path. -/

mutual
theorem editNode_ok {P O f pre I} (hf : Works P O f pre I) : ∀ (p : List Nat) (n : Node) {s L}, okNode P n → (∃ m, n.at? p = some m ∧ pre m) → St P s (nodeB n ++ I ++ L) →
    ∃ s' n' out, editNode f s n p = some (s', n', out) ∧ okNode P n' ∧ O out ∧ St P s' (nodeB n' ++ itemsB out ++ L) ∧ n'.head.holder = n.head.holder
  | [], n, s, L, hn, ⟨m, hm, hp⟩, h => by
    simp only [Node.at?, Option.some.injEq] at hm; subst hm
    obtain ⟨s', n', out, e, r⟩ := hf s n L hn hp h
    exact ⟨s', n', out, by simp [editNode, e], r⟩
  | i :: p, .mk nh ni, s, L, hn, ⟨m, hm, hp⟩, h => by
    obtain ⟨s', n', out, e, o, oo, hs⟩ := editItems_ok hf p i ni (L := headB nh ++ L) hn.2 ⟨m, by simpa [Node.at?] using hm, hp⟩ (h.of_perm (by simp only [nodeB]; perm))
    exact ⟨s', .mk nh n', out, by simp [editNode, e], ⟨hn.1, o⟩, oo, hs.of_perm (by simp only [nodeB]; perm), rfl⟩
  termination_by p n => (sizeOf n, 0)
theorem editItems_ok {P O f pre I} (hf : Works P O f pre I) : ∀ (p : List Nat) (i : Nat) (l : Items) {s L}, okItems P l → (∃ m, l.nodeAt? i p = some m ∧ pre m) → St P s (itemsB l ++ I ++ L) →
    ∃ s' l' out, editItems f s l i p = some (s', l', out) ∧ okItems P l' ∧ O out ∧ St P s' (itemsB l' ++ itemsB out ++ L)
  | p, _, .nil, s, L, _, ⟨m, hm, _⟩, _ => by simp [Items.nodeAt?] at hm
  | p, 0, .leaf _ _, s, L, _, ⟨m, hm, _⟩, _ => by simp [Items.nodeAt?] at hm
  | p, 0, .node n next, s, L, hl, ⟨m, hm, hp⟩, h => by
    obtain ⟨s', n', out, e, o, oo, hs, hh⟩ := editNode_ok hf p n (L := itemsB next ++ L) hl.1 ⟨m, by simpa [Items.nodeAt?] using hm, hp⟩ (h.of_perm (by simp only [itemsB]; perm))
    exact ⟨s', .node n' next, out, by simp [editItems, e], ⟨o, by rw [hh]; exact hl.2.1, hl.2.2⟩, oo, hs.of_perm (by simp only [itemsB]; perm)⟩
  | p, i + 1, .node n next, s, L, hl, ⟨m, hm, hp⟩, h => by
    obtain ⟨s', n', out, e, o, oo, hs⟩ := editItems_ok hf p i next (L := nodeB n ++ L) hl.2.2 ⟨m, by simpa [Items.nodeAt?] using hm, hp⟩ (h.of_perm (by simp only [itemsB]; perm))
    exact ⟨s', .node n n', out, by simp [editItems, e], ⟨hl.1, hl.2.1, o⟩, oo, hs.of_perm (by simp only [itemsB]; perm)⟩
  | p, i + 1, .leaf n next, s, L, hl, ⟨m, hm, hp⟩, h => by
    obtain ⟨s', n', out, e, o, oo, hs⟩ := editItems_ok hf p i next (L := leafB n ++ L) hl.2 ⟨m, by simpa [Items.nodeAt?] using hm, hp⟩ (h.of_perm (by simp only [itemsB]; perm))
    exact ⟨s', .leaf n n', out, by simp [editItems, e], ⟨hl.1, o⟩, oo, hs.of_perm (by simp only [itemsB]; perm)⟩
  termination_by p i l => (sizeOf l, 0)
end

end Axl.Own
