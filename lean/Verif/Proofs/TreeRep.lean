/-
The memory of the tree represents a forest.
-/
import Verif.Proofs.TreeLinks
import Verif.Proofs.TreeForest
import Verif.Spec.TreeApi

namespace Axl.Heap
open Spec.Tree Spec.Tree.Forest

/-- `h` represents `f`, and `ns n` are the items of the node `n`, with their addresses. -/
structure Rep (h : Heap) (f : Forest) (ns : Nat → List (Nat × Info)) : Prop where
  next : h.nextNode = f.next
  nodes : ∀ n, f.live n = true → ∃ hd, h.nodes n =
    some ⟨f.name n, headAddr (ns n) none, lastAddr (ns n) none, hd⟩
  dead : ∀ n, f.live n = false → h.nodes n = none
  seg : ∀ n, f.live n = true → Seg h.items none (ns n) none
  nodup : ∀ n, f.live n = true → ((ns n).map Prod.fst).Nodup
  info : ∀ n, f.live n = true → (ns n).map Prod.snd = (f.kids n).map fun v => ⟨some n, v⟩
  child : ∀ n a c, f.live n = true → (a, ⟨some n, .node c⟩) ∈ ns n →
    ∃ nd, h.nodes c = some nd ∧ nd.holder = some a
  holder : ∀ c nd a, f.live c = true → h.nodes c = some nd → nd.holder = some a →
    ∃ cell, h.items a = some cell ∧ cell.data.data = .node c ∧
      ((∃ n, f.live n = true ∧ a ∈ (ns n).map Prod.fst) ∨ (cell.prev = none ∧ cell.next = none))
  fresh : ∀ a, h.nextItem ≤ a → h.items a = none

theorem seg_entry {m : Mem Info} {l : List (Nat × Info)} {p n : Option Nat} (hs : Seg m p l n)
    {a : Nat} {i : Info} (ha : (a, i) ∈ l) : ∃ c, m a = some c ∧ c.data = i := by
  obtain ⟨A, B, rfl⟩ := List.append_of_mem ha
  exact ⟨_, seg_mid hs, rfl⟩

theorem exists_entry {l : List (Nat × Info)} {a : Nat} (ha : a ∈ l.map Prod.fst) : ∃ i, (a, i) ∈ l := by
  obtain ⟨⟨b, i⟩, hb, rfl⟩ := List.mem_map.mp ha
  exact ⟨i, hb⟩

theorem entry_mem {l : List (Nat × Info)} {a : Nat} {i : Info} (h : (a, i) ∈ l) : a ∈ l.map Prod.fst :=
  List.mem_map.mpr ⟨_, h, rfl⟩

namespace Rep
variable {h : Heap} {f : Forest} {ns : Nat → List (Nat × Info)}

theorem entry (R : Rep h f ns) {n : Nat} (hn : f.live n = true) {a : Nat} {i : Info} (ha : (a, i) ∈ ns n) :
    i.parent = some n ∧ i.data ∈ f.kids n := by
  have : i ∈ (ns n).map Prod.snd := List.mem_map.mpr ⟨_, ha, rfl⟩
  rw [R.info n hn] at this
  obtain ⟨v, hv, rfl⟩ := List.mem_map.mp this
  exact ⟨rfl, hv⟩

/-- An item is in the list of one node only. -/
theorem unique (R : Rep h f ns) {n m a : Nat} (hn : f.live n = true) (hm : f.live m = true)
    (ha : a ∈ (ns n).map Prod.fst) (hb : a ∈ (ns m).map Prod.fst) : n = m := by
  obtain ⟨i, hi⟩ := exists_entry ha
  obtain ⟨j, hj⟩ := exists_entry hb
  obtain ⟨c, hc, rfl⟩ := seg_entry (R.seg n hn) hi
  obtain ⟨d, hd, rfl⟩ := seg_entry (R.seg m hm) hj
  rw [hc] at hd
  cases hd
  have h1 := (R.entry hn hi).1
  have h2 := (R.entry hm hj).1
  rw [h1] at h2
  exact Option.some.inj h2

theorem entry_of_cell (R : Rep h f ns) {n a : Nat} (hn : f.live n = true) (ha : a ∈ (ns n).map Prod.fst)
    {c : Cell Info} (hc : h.items a = some c) : (a, c.data) ∈ ns n := by
  obtain ⟨i, hi⟩ := exists_entry ha
  obtain ⟨d, hd, rfl⟩ := seg_entry (R.seg n hn) hi
  rw [hc] at hd
  cases hd
  exact hi

theorem edge_entry (R : Rep h f ns) {n c : Nat} (e : Edge f n c) : ∃ a, (a, (⟨some n, .node c⟩ : Info)) ∈ ns n := by
  have : (⟨some n, .node c⟩ : Info) ∈ (ns n).map Prod.snd := by
    rw [R.info n e.1]; exact List.mem_map.mpr ⟨_, e.2, rfl⟩
  obtain ⟨⟨a, i⟩, h1, rfl⟩ := List.mem_map.mp this
  exact ⟨a, h1⟩

theorem entry_edge (R : Rep h f ns) {n a c : Nat} (hn : f.live n = true)
    (ha : (a, (⟨some n, .node c⟩ : Info)) ∈ ns n) : Edge f n c := ⟨hn, (R.entry hn ha).2⟩

theorem single (R : Rep h f ns) : Single f := by
  intro n m c e1 e2
  obtain ⟨a, ha⟩ := R.edge_entry e1
  obtain ⟨b, hb⟩ := R.edge_entry e2
  obtain ⟨nd, h1, h2⟩ := R.child n a c e1.1 ha
  obtain ⟨nd', h1', h2'⟩ := R.child m b c e2.1 hb
  rw [h1] at h1'; cases h1'
  rw [h2] at h2'; cases h2'
  exact R.unique e1.1 e2.1 (entry_mem ha) (entry_mem hb)

theorem addr_lt (R : Rep h f ns) {n a : Nat} (hn : f.live n = true) (ha : a ∈ (ns n).map Prod.fst) :
    a < h.nextItem := by
  obtain ⟨c, hc⟩ := seg_alloc (R.seg n hn) ha
  apply Decidable.byContradiction
  intro hlt
  rw [R.fresh a (by omega)] at hc
  cases hc

theorem length_le (R : Rep h f ns) {n : Nat} (hn : f.live n = true) : (ns n).length ≤ h.nextItem := by
  have := nodup_bounded_length (R.nodup n hn) (fun x hx => R.addr_lt hn hx)
  simpa using this

theorem length_kids (R : Rep h f ns) {n : Nat} (hn : f.live n = true) : (ns n).length = (f.kids n).length := by
  have := congrArg List.length (R.info n hn)
  simpa using this

/-- The item that holds a node not attached anywhere is linked to nothing. -/
theorem holder_loose (R : Rep h f ns) {c a : Nat} {nd : NodeC} (hc : f.live c = true)
    (hnd : h.nodes c = some nd) (hh : nd.holder = some a) (hfree : ∀ p, ¬ Edge f p c) :
    Loose h.items a (.node c) ∧ ∀ n, f.live n = true → a ∉ (ns n).map Prod.fst := by
  obtain ⟨cell, h1, h2, h3⟩ := R.holder c nd a hc hnd hh
  have hno : ∀ n, f.live n = true → a ∉ (ns n).map Prod.fst := by
    intro n hn hmem
    have he := R.entry_of_cell hn hmem h1
    obtain ⟨hp, hk⟩ := R.entry hn he
    rw [h2] at hk
    exact hfree n ⟨hn, hk⟩
  refine ⟨?_, hno⟩
  rcases h3 with ⟨n, hn, hm⟩ | ⟨h3, h4⟩
  · exact absurd hm (hno n hn)
  · refine ⟨cell.data.parent, ?_⟩
    rw [h1]
    obtain ⟨p, n, ⟨x, y⟩⟩ := cell
    simp only at h2 h3 h4 ⊢
    subst h2; subst h3; subst h4; rfl

/-- A change to the children of one node. -/
theorem relink (R : Rep h f ns) {h' : Heap} {p : Nat} (hp : f.live p = true)
    {L : List (Nat × Info)} {D : List Nat} {l : List Child} (C : Relinked h h' p L D)
    (hpD : ∀ b ∈ (ns p).map Prod.fst, b ∈ D)
    (hD : ∀ b ∈ D, b ∈ (ns p).map Prod.fst ∨ ∀ m, f.live m = true → b ∉ (ns m).map Prod.fst)
    (hnd : (L.map Prod.fst).Nodup)
    (hinfo : L.map Prod.snd = l.map fun v => ⟨some p, v⟩)
    (hDlt : ∀ b ∈ D, b < h.nextItem)
    (hL : ∀ e ∈ L, e ∈ ns p ∨ ((∀ m, f.live m = true → e.1 ∉ (ns m).map Prod.fst) ∧
      (∃ cell, h.items e.1 = some cell ∧ cell.data.data = e.2.data) ∧
      ∀ c, e.2.data = .node c → ∃ nd, h.nodes c = some nd ∧ nd.holder = some e.1))
    (hgone : ∀ b c, b ∈ D → b ∉ L.map Prod.fst → f.live c = true →
      (∃ cell, h.items b = some cell ∧ cell.data.data = .node c) →
      Loose h'.items b (.node c)) :
    Rep h' (f.setKids p l) (fun m => if m = p then L else ns m) := by
  have hhold : ∀ c nd', h'.nodes c = some nd' → f.live c = true →
      ∃ nd, h.nodes c = some nd ∧ nd.holder = nd'.holder := by
    intro c nd' hc hlive
    by_cases hcp : c = p
    · subst hcp
      obtain ⟨hd, h1⟩ := R.nodes c hlive
      have := C.nodes _ h1
      rw [this] at hc; cases hc
      exact ⟨_, h1, rfl⟩
    · rw [C.others c hcp] at hc
      exact ⟨nd', hc, rfl⟩
  have hhold2 : ∀ c nd, h.nodes c = some nd → ∃ nd', h'.nodes c = some nd' ∧ nd'.holder = nd.holder := by
    intro c nd hc
    by_cases hcp : c = p
    · subst hcp
      exact ⟨_, C.nodes _ hc, rfl⟩
    · exact ⟨nd, by rw [C.others c hcp]; exact hc, rfl⟩
  -- outside `p`, lists do not meet `D`
  have hout : ∀ m, f.live m = true → m ≠ p → ∀ b ∈ (ns m).map Prod.fst, b ∉ D := by
    intro m hm hmp b hb hbD
    rcases hD b hbD with h1 | h1
    · exact hmp (R.unique hm hp hb h1)
    · exact h1 m hm hb
  constructor
  · rw [C.nextNode]; exact R.next
  · intro n hn
    change f.live n = true at hn
    obtain ⟨hd, h1⟩ := R.nodes n hn
    by_cases hnp : n = p
    · subst hnp
      refine ⟨hd, ?_⟩
      rw [C.nodes _ h1]
      simp [setKids]
    · refine ⟨hd, ?_⟩
      rw [C.others n hnp, h1]
      simp [setKids, hnp]
  · intro n hn
    change f.live n = false at hn
    have hnp : n ≠ p := by intro e; subst e; rw [hp] at hn; cases hn
    rw [C.others n hnp]; exact R.dead n hn
  · intro n hn
    change f.live n = true at hn
    by_cases hnp : n = p
    · subst hnp; simpa using C.seg
    · simp only [hnp, if_false]
      exact seg_frame (fun b hb => C.frame b (hout n hn hnp b hb)) (R.seg n hn)
  · intro n hn
    change f.live n = true at hn
    by_cases hnp : n = p
    · subst hnp; simpa using hnd
    · simp only [hnp, if_false]; exact R.nodup n hn
  · intro n hn
    change f.live n = true at hn
    by_cases hnp : n = p
    · subst hnp; simpa [setKids] using hinfo
    · simp only [hnp, if_false, setKids]; exact R.info n hn
  · intro n a c hn ha
    change f.live n = true at hn
    have hh : ∃ nd, h.nodes c = some nd ∧ nd.holder = some a := by
      by_cases hnp : n = p
      · subst hnp
        simp only [if_true] at ha
        rcases hL _ ha with h1 | ⟨_, _, h1⟩
        · exact R.child n a c hn h1
        · exact h1 c rfl
      · simp only [hnp, if_false] at ha
        exact R.child n a c hn ha
    obtain ⟨nd, h1, h2⟩ := hh
    obtain ⟨nd', h1', h2'⟩ := hhold2 c nd h1
    exact ⟨nd', h1', h2'.trans h2⟩
  · intro c nd' a hc hnd' ha
    change f.live c = true at hc
    obtain ⟨nd, h1, h2⟩ := hhold c nd' hnd' hc
    rw [← h2] at ha
    obtain ⟨cell, h3, h4, h5⟩ := R.holder c nd a hc h1 ha
    by_cases haL : a ∈ L.map Prod.fst
    · obtain ⟨i, hi⟩ := exists_entry haL
      obtain ⟨c', hc', hci⟩ := seg_entry C.seg hi
      refine ⟨c', hc', ?_, Or.inl ⟨p, hp, by simpa using haL⟩⟩
      rw [hci]
      rcases hL _ hi with h6 | ⟨_, ⟨cell', h6, h7⟩, _⟩
      · obtain ⟨c2, hc2, hci2⟩ := seg_entry (R.seg p hp) h6
        rw [h3] at hc2; cases hc2
        rw [← hci2]; exact h4
      · dsimp only at h6 h7
        rw [h3] at h6; cases h6
        rw [← h7]; exact h4
    · by_cases haD : a ∈ D
      · obtain ⟨prt, hl⟩ := hgone a c haD haL hc ⟨cell, h3, h4⟩
        exact ⟨_, hl, rfl, Or.inr ⟨rfl, rfl⟩⟩
      · refine ⟨cell, by rw [C.frame a haD]; exact h3, h4, ?_⟩
        rcases h5 with ⟨n, hn, hm⟩ | h5
        · by_cases hnp : n = p
          · subst hnp
            exact absurd (hpD a hm) haD
          · exact Or.inl ⟨n, hn, by simpa [hnp] using hm⟩
        · exact Or.inr h5
  · intro a ha
    rw [C.nextItem] at ha
    have : a ∉ D := fun hd => by have := hDlt a hd; omega
    rw [C.frame a this]; exact R.fresh a ha

/-! ### Preparing an item -/

theorem newItem (R : Rep h f ns) (v : Child) : Rep (h.newItem v).1 f ns := by
  have hne : ∀ {n a : Nat}, f.live n = true → a ∈ (ns n).map Prod.fst → a ≠ h.nextItem :=
    fun hn ha e => by have := R.addr_lt hn ha; omega
  constructor
  · exact R.next
  · exact R.nodes
  · exact R.dead
  · intro n hn
    exact seg_put_of_notMem (fun hm => hne hn hm rfl) (R.seg n hn)
  · exact R.nodup
  · exact R.info
  · exact R.child
  · intro c nd a hc hnd ha
    obtain ⟨cell, h1, h2, h3⟩ := R.holder c nd a hc hnd ha
    have : a ≠ h.nextItem := by
      intro e; subst e; rw [R.fresh _ (Nat.le_refl _)] at h1; cases h1
    exact ⟨cell, by simp [Heap.newItem, Mem.put_ne _ _ this]; exact h1, h2, h3⟩
  · intro a ha
    simp only [Heap.newItem] at ha ⊢
    rw [Mem.put_ne _ _ (by omega)]
    exact R.fresh a (by omega)

/-- The item `a` holds `v`, is linked to nothing, and `v` (if a node) knows it. -/
structure Ready (h : Heap) (f : Forest) (ns : Nat → List (Nat × Info)) (a : Nat) (v : Child) : Prop where
  loose : Loose h.items a v
  out : ∀ n, f.live n = true → a ∉ (ns n).map Prod.fst
  lt : a < h.nextItem
  held : ∀ c, v = .node c → ∃ nd, h.nodes c = some nd ∧ nd.holder = some a

theorem setHolder (R : Rep h f ns) {c a : Nat} (hc : f.live c = true) (hfree : ∀ p, ¬ Edge f p c)
    (hl : Loose h.items a (.node c)) (hout : ∀ n, f.live n = true → a ∉ (ns n).map Prod.fst)
    (hlt : a < h.nextItem) :
    ∃ h', h.setHolder c (some a) = some h' ∧ Rep h' f ns ∧ Ready h' f ns a (.node c) ∧
      h'.items = h.items ∧ h'.nextItem = h.nextItem := by
  obtain ⟨hd, hn⟩ := R.nodes c hc
  refine ⟨_, setHolder_of hn _, ?_, ?_, rfl, rfl⟩
  · constructor
    · exact R.next
    · intro n hnl
      by_cases e : n = c
      · subst e; exact ⟨some a, by simp⟩
      · rw [putNode_ne _ _ e]; exact R.nodes n hnl
    · intro n hnl
      have e : n ≠ c := by intro e; subst e; rw [hc] at hnl; cases hnl
      rw [putNode_ne _ _ e]; exact R.dead n hnl
    · exact R.seg
    · exact R.nodup
    · exact R.info
    · intro n b d hnl hb
      have e : d ≠ c := by intro e; subst e; exact hfree n (R.entry_edge hnl hb)
      obtain ⟨nd, h1, h2⟩ := R.child n b d hnl hb
      exact ⟨nd, by rw [putNode_ne _ _ e]; exact h1, h2⟩
    · intro d nd b hdl hnd hb
      by_cases e : d = c
      · subst e
        rw [putNode_self] at hnd; cases hnd
        cases hb
        obtain ⟨prt, hl⟩ := hl
        exact ⟨_, hl, rfl, Or.inr ⟨rfl, rfl⟩⟩
      · rw [putNode_ne _ _ e] at hnd
        exact R.holder d nd b hdl hnd hb
    · exact R.fresh
  · exact ⟨hl, hout, hlt, fun d hd => by cases hd; exact ⟨_, putNode_self _ _ _, rfl⟩⟩

theorem mayGo_node (T : Tame f) {p c : Nat} (h : f.mayGo p (.node c) = true) :
    f.live c = true ∧ (∀ q, ¬ Edge f q c) ∧ ¬ Reach f c p := by
  simp only [mayGo, Bool.and_eq_true, Bool.not_eq_true'] at h
  obtain ⟨⟨h1, h2⟩, h3⟩ := h
  refine ⟨h1, ?_, ?_⟩
  · intro q e
    rw [(attached_iff T).mpr ⟨q, e⟩] at h2; cases h2
  · intro hr
    rw [(below_iff T h1).mpr hr] at h3; cases h3

theorem newRef (R : Rep h f ns) (T : Tame f) {p : Nat} {v : Child} (hv : f.mayGo p v = true) :
    ∃ h' a, h.newRef v = some (h', a) ∧ Rep h' f ns ∧ Ready h' f ns a v ∧
      (∀ n b, f.live n = true → b ∈ (ns n).map Prod.fst → h'.items b = h.items b) := by
  have R1 := R.newItem v
  have hout : ∀ n, f.live n = true → h.nextItem ∉ (ns n).map Prod.fst :=
    fun n hn hm => by have := R.addr_lt hn hm; omega
  have hl : Loose (h.newItem v).1.items h.nextItem v := ⟨none, by simp [Heap.newItem, Mem.put_self]⟩
  have hfr : ∀ n b, f.live n = true → b ∈ (ns n).map Prod.fst → (h.newItem v).1.items b = h.items b := by
    intro n b hn hb
    exact Mem.put_ne _ _ (fun e => hout n hn (e ▸ hb))
  cases v with
  | text k s =>
    exact ⟨_, _, rfl, R1, ⟨hl, hout, by simp [Heap.newItem], fun c hc => by cases hc⟩, hfr⟩
  | node c =>
    obtain ⟨h1, h2, _⟩ := mayGo_node T hv
    obtain ⟨h', e1, e2, e3, e4, e5⟩ := R1.setHolder h1 h2 hl hout (Nat.lt_succ_self _)
    refine ⟨h', h.nextItem, ?_, e2, e3, ?_⟩
    · simp only [Heap.newRef]
      rw [show (h.newItem (.node c)).2 = h.nextItem from rfl, e1]
      rfl
    · intro n b hn hb; rw [e4]; exact hfr n b hn hb

theorem readDoc (R : Rep h f ns) {p : Nat} (hp : f.live p = true) : h.readDoc p = some () := by
  obtain ⟨hd, hn⟩ := R.nodes p hp
  unfold Heap.readDoc
  rw [hn]
  dsimp only
  cases hd with
  | none => rfl
  | some a =>
    obtain ⟨cell, h1, _⟩ := R.holder p _ a hp hn rfl
    simp [h1]

theorem commonConfigure (R : Rep h f ns) (T : Tame f) {p : Nat} (hp : f.live p = true) {v : Child}
    (hv : f.mayGo p v = true) :
    ∃ h' a, h.commonConfigure p v = some (h', a) ∧ Rep h' f ns ∧ Ready h' f ns a v ∧
      (∀ n b, f.live n = true → b ∈ (ns n).map Prod.fst → h'.items b = h.items b) := by
  obtain ⟨h', a, e1, e2, e3, e4⟩ := R.newRef T hv
  cases v with
  | text k s =>
    refine ⟨h', a, ?_, e2, e3, e4⟩
    simp only [Heap.commonConfigure, R.readDoc hp]
    exact e1
  | node c =>
    obtain ⟨h1, h2, _⟩ := mayGo_node T hv
    obtain ⟨hd, hn⟩ := R.nodes c h1
    cases hd with
    | none =>
      refine ⟨h', a, ?_, e2, e3, e4⟩
      simp only [Heap.commonConfigure, R.readDoc hp, hn]
      exact e1
    | some b =>
      obtain ⟨hl, hout⟩ := R.holder_loose h1 hn rfl h2
      have hl' := hl
      obtain ⟨prt, hl'⟩ := hl'
      have hlt : b < h.nextItem := by
        apply Decidable.byContradiction
        intro hx
        rw [R.fresh b (by omega)] at hl'; cases hl'
      obtain ⟨h'', x1, x2, x3, x4, x5⟩ := R.setHolder h1 h2 hl hout hlt
      refine ⟨h'', b, ?_, x2, x3, fun n b hn hb => by rw [x4]⟩
      simp only [Heap.commonConfigure, R.readDoc hp, hn]
      rw [setData_of hl']
      have : ({ h with items := h.items.put b ⟨none, none, ⟨prt, .node c⟩⟩ } : Heap) = h := by
        cases h
        simp only [Heap.mk.injEq, true_and, and_true]
        funext y
        simp only [Mem.put]
        split
        · rename_i e; rw [e]; exact hl'.symm
        · rfl
      dsimp only
      rw [this, x1]
      rfl

/-! ### The calls -/

theorem create (R : Rep h f ns) (T : Tame f) (name : List Char) :
    Rep (h.create name).1 (f.step (.create name)) (fun m => if m = f.next then [] else ns m) := by
  have hne : ∀ {n : Nat}, f.live n = true → n ≠ f.next := fun hn e => by
    have := T.bound _ hn; omega
  have hlive : ∀ {n}, (f.step (.create name)).live n = true → n = f.next ∨ f.live n = true := by
    intro n hn
    simp only [step, add] at hn
    by_cases e : n = f.next
    · exact Or.inl e
    · simp only [e, if_false] at hn; exact Or.inr hn
  constructor
  · simp [Heap.create, step, add, R.next]
  · intro n hn
    rcases hlive hn with rfl | hn
    · exact ⟨none, by simp [Heap.create, step, add, R.next]⟩
    · obtain ⟨hd, h1⟩ := R.nodes n hn
      exact ⟨hd, by simp [Heap.create, step, add, R.next, hne hn, h1]⟩
  · intro n hn
    simp only [step, add] at hn
    by_cases e : n = f.next
    · simp [e] at hn
    · simp only [e, if_false] at hn
      simp only [Heap.create, R.next, e, if_false]
      exact R.dead n hn
  · intro n hn
    rcases hlive hn with rfl | hn
    · simp [Seg]
    · simp only [hne hn, if_false]; exact R.seg n hn
  · intro n hn
    rcases hlive hn with rfl | hn
    · simp
    · simp only [hne hn, if_false]; exact R.nodup n hn
  · intro n hn
    rcases hlive hn with rfl | hn
    · simp [step, add]
    · simp only [hne hn, if_false, step, add]; exact R.info n hn
  · intro n a c hn ha
    rcases hlive hn with rfl | hn
    · simp at ha
    · simp only [hne hn, if_false] at ha
      obtain ⟨nd, h1, h2⟩ := R.child n a c hn ha
      have hc : c ≠ f.next := hne (T.closed _ _ (R.entry_edge hn ha))
      exact ⟨nd, by simp [Heap.create, R.next, hc, h1], h2⟩
  · intro c nd a hc hnd ha
    rcases hlive hc with rfl | hc
    · simp [Heap.create, R.next] at hnd
      subst hnd
      cases ha
    · simp only [Heap.create, R.next, hne hc, if_false] at hnd
      obtain ⟨cell, h1, h2, h3⟩ := R.holder c nd a hc hnd ha
      refine ⟨cell, h1, h2, ?_⟩
      rcases h3 with ⟨n, hn, hm⟩ | h3
      · refine Or.inl ⟨n, ?_, ?_⟩
        · simp [step, add, hn]
        · simpa [hne hn] using hm
      · exact Or.inr h3
  · exact R.fresh

/-- Adding a prepared item at the end. -/
theorem setChildRef (R : Rep h f ns) {p : Nat} (hp : f.live p = true) {a : Nat} {v : Child}
    (hr : Ready h f ns a v) :
    ∃ h' ns', h.setChildRef p a = some h' ∧ Rep h' (f.setKids p (f.kids p ++ [v])) ns' := by
  obtain ⟨prt, hl⟩ := hr.loose
  obtain ⟨hd, hn⟩ := R.nodes p hp
  obtain ⟨h', e, C⟩ := setChildRef_spec hn rfl rfl (R.seg p hp) (R.nodup p hp) (hr.out p hp) hl
  refine ⟨h', _, e, R.relink hp C ?_ ?_ ?_ ?_ ?_ ?_ ?_⟩
  · intro b hb; exact List.mem_append_left _ hb
  · intro b hb
    rcases List.mem_append.mp hb with hb | hb
    · exact Or.inl hb
    · simp at hb; subst hb; exact Or.inr hr.out
  · rw [List.map_append, List.nodup_append]
    refine ⟨R.nodup p hp, by simp, ?_⟩
    intro x hx y hy exy
    simp at hy
    exact hr.out p hp (by rw [← hy, ← exy]; exact hx)
  · rw [List.map_append, R.info p hp, List.map_append]; rfl
  · intro b hb
    rcases List.mem_append.mp hb with hb | hb
    · exact R.addr_lt hp hb
    · simp at hb; subst hb; exact hr.lt
  · intro x hx
    rcases List.mem_append.mp hx with hx | hx
    · exact Or.inl hx
    · simp at hx; subst hx
      exact Or.inr ⟨hr.out, ⟨_, hl, rfl⟩, fun c hc => hr.held c hc⟩
  · intro b c hb hbL
    exact absurd (by simpa using hb) (by simpa using hbL)

/-! ### Positions -/

theorem nextTimes_spec {m : Heap} {A B : List (Nat × Info)} {a : Nat} {i : Info} {p n : Option Nat}
    (hs : Seg m.items p (A ++ (a, i) :: B) n) :
    m.nextTimes A.length (headAddr (A ++ (a, i) :: B) n) = some a := by
  induction A generalizing p with
  | nil => rfl
  | cons e t ih =>
    obtain ⟨b, j⟩ := e
    simp only [List.cons_append, headAddr_cons, List.length_cons, nextTimes, itemNext]
    rw [hs.1]
    exact ih hs.2

/-- The item at a position. -/
theorem itemAt (R : Rep h f ns) {p i : Nat} (hp : f.live p = true) {v : Child} (hi : (f.kids p)[i]? = some v) :
    ∃ A B a, h.itemAt p i = some a ∧ ns p = A ++ (a, ⟨some p, v⟩) :: B ∧ A.length = i ∧
      (f.kids p).take i = A.map (·.2.data) ∧ (f.kids p).drop (i + 1) = B.map (·.2.data) := by
  have hk : f.kids p = (ns p).map (·.2.data) := by
    have h1 := R.info p hp
    have h2 : ((ns p).map Prod.snd).map (·.data) = f.kids p := by
      rw [h1, List.map_map]
      conv => rhs; rw [← List.map_id (f.kids p)]
      rfl
    rw [← h2, List.map_map]; rfl
  have hlt : i < (ns p).length := by
    rw [hk, List.getElem?_map] at hi
    cases e : (ns p)[i]? with
    | none => rw [e] at hi; cases hi
    | some x => exact (List.getElem?_eq_some_iff.mp e).1
  have hsplit : ns p = (ns p).take i ++ (ns p)[i] :: (ns p).drop (i + 1) := by
    rw [← List.drop_eq_getElem_cons hlt, List.take_append_drop]
  obtain ⟨a, inf, e⟩ : ∃ a inf, (ns p)[i] = (a, inf) := ⟨_, _, rfl⟩
  rw [e] at hsplit
  have hent := R.entry hp (show (a, inf) ∈ ns p by rw [← e]; exact List.getElem_mem hlt)
  have hinf : inf = ⟨some p, v⟩ := by
    rw [hk, List.getElem?_map, List.getElem?_eq_getElem hlt, e] at hi
    simp at hi
    cases inf
    simp at hi hent ⊢
    exact ⟨hent.1, hi⟩
  subst hinf
  refine ⟨(ns p).take i, (ns p).drop (i + 1), a, ?_, hsplit, ?_, ?_, ?_⟩
  · obtain ⟨hd, hn⟩ := R.nodes p hp
    have hs := R.seg p hp
    rw [hsplit] at hs
    have := nextTimes_spec hs
    rw [← hsplit] at this
    unfold Heap.itemAt itemFirst
    rw [hn]
    simp only [Option.map_some, Option.bind_some]
    rw [List.length_take, Nat.min_eq_left (by omega)] at this
    exact this
  · rw [List.length_take]; omega
  · rw [hk, List.map_take]
  · rw [hk, List.map_drop]

theorem kids_eq (R : Rep h f ns) {p : Nat} (hp : f.live p = true) : f.kids p = (ns p).map (·.2.data) := by
  have h1 := R.info p hp
  have h2 : ((ns p).map Prod.snd).map (·.data) = f.kids p := by
    rw [h1, List.map_map]
    conv => rhs; rw [← List.map_id (f.kids p)]
    rfl
  rw [← h2, List.map_map]; rfl

theorem info_of_parts {p : Nat} {A : List (Nat × Info)} (hA : ∀ e ∈ A, e.2.parent = some p) :
    A.map Prod.snd = (A.map (·.2.data)).map fun v => ⟨some p, v⟩ := by
  rw [List.map_map]
  apply List.map_congr_left
  intro e he
  have := hA e he
  obtain ⟨a, ⟨x, y⟩⟩ := e
  simp at this
  subst this
  rfl

theorem insertItem (R : Rep h f ns) {p i : Nat} (hp : f.live p = true) {a b : Nat} {u v : Child}
    {A B : List (Nat × Info)} (hsplit : ns p = A ++ (a, ⟨some p, u⟩) :: B) (hi : A.length = i)
    (hr : Ready h f ns b v) :
    ∃ h' ns', h.insertItem a p b = some h' ∧
      Rep h' (f.setKids p ((f.kids p).take (i + 1) ++ v :: (f.kids p).drop (i + 1))) ns' := by
  obtain ⟨prt, hl⟩ := hr.loose
  obtain ⟨hd, hn⟩ := R.nodes p hp
  have hs := R.seg p hp
  have hnd := R.nodup p hp
  have hout := hr.out p hp
  have hk := R.kids_eq hp
  have hpar : ∀ e ∈ ns p, e.2.parent = some p := fun e he => (R.entry hp (a := e.1) (i := e.2) he).1
  rw [hsplit] at hs hnd hout hn hk hpar
  obtain ⟨h', e, C⟩ := insertItem_spec hn rfl rfl hs hnd rfl hout hl
  rw [← hsplit] at C
  refine ⟨h', _, e, R.relink hp C ?_ ?_ ?_ ?_ ?_ ?_ ?_⟩
  · intro b hb; exact List.mem_append_left _ hb
  · intro b hb
    rcases List.mem_append.mp hb with hb | hb
    · exact Or.inl hb
    · simp at hb; subst hb; exact Or.inr hr.out
  · simp only [List.map_append, List.map_cons, List.nodup_append, List.nodup_cons, List.mem_cons,
      List.mem_append, not_or] at hnd hout ⊢
    obtain ⟨n1, ⟨n2, n3⟩, n4⟩ := hnd
    refine ⟨n1, ⟨⟨fun e => hout.2.1 e.symm, n2⟩, hout.2.2, n3⟩, ?_⟩
    intro x hx y hy e2
    rcases hy with hy | hy | hy
    · exact n4 x hx y (Or.inl hy) e2
    · subst hy; subst e2; exact hout.1 hx
    · exact n4 x hx y (Or.inr hy) e2
  · rw [hk]
    have h1 : (A ++ (a, (⟨some p, u⟩ : Info)) :: B).map (·.2.data) = (A.map (·.2.data) ++ [u]) ++ B.map (·.2.data) := by simp
    rw [h1, List.take_left' (by simp [hi]), List.drop_left' (by simp [hi])]
    have hA := info_of_parts (p := p) (A := A) (fun e he => hpar e (by simp [he]))
    have hB := info_of_parts (p := p) (A := B) (fun e he => hpar e (by simp [he]))
    simp only [List.map_append, List.map_cons, List.map_nil, ← hA, ← hB]
    simp
  · intro b hb
    rcases List.mem_append.mp hb with hb | hb
    · exact R.addr_lt hp hb
    · simp at hb; subst hb; exact hr.lt
  · intro x hx
    simp only [List.mem_append, List.mem_cons] at hx
    rcases hx with hx | hx | hx | hx
    · left; rw [hsplit]; simp [hx]
    · left; rw [hsplit]; simp [hx]
    · subst hx
      exact Or.inr ⟨hr.out, ⟨_, hl, rfl⟩, fun c hc => hr.held c hc⟩
    · left; rw [hsplit]; simp [hx]
  · intro b c hb hbL
    rw [hsplit] at hb
    simp only [List.map_append, List.map_cons, List.mem_append, List.mem_cons,
      List.not_mem_nil, or_false] at hb hbL
    exact absurd hb (by
      intro hb
      apply hbL
      rcases hb with (hb | hb | hb) | hb
      · exact Or.inl hb
      · exact Or.inr (Or.inl hb)
      · exact Or.inr (Or.inr (Or.inr hb))
      · exact Or.inr (Or.inr (Or.inl hb)))

/-- Common part of the calls that take an item out. -/
theorem taken_out (R : Rep h f ns) {p i : Nat} (hp : f.live p = true) {a : Nat} {v : Child}
    {A B : List (Nat × Info)} (hsplit : ns p = A ++ (a, ⟨some p, v⟩) :: B) (hi : A.length = i)
    {h' : Heap} (C : Relinked h h' p (A ++ B) ((A ++ (a, ⟨some p, v⟩) :: B).map Prod.fst))
    (ha : h'.items a = some ⟨none, none, ⟨some p, v⟩⟩) :
    Rep h' (f.setKids p ((f.kids p).eraseIdx i)) (fun m => if m = p then A ++ B else ns m) := by
  have hnd := R.nodup p hp
  have hk := R.kids_eq hp
  have hpar : ∀ e ∈ ns p, e.2.parent = some p := fun e he => (R.entry hp (a := e.1) (i := e.2) he).1
  rw [hsplit] at hnd hk hpar
  rw [← hsplit] at C
  refine R.relink hp C ?_ ?_ ?_ ?_ ?_ ?_ ?_
  · intro b hb; exact hb
  · intro b hb; exact Or.inl hb
  · simp only [List.map_append, List.map_cons, List.nodup_append, List.nodup_cons, List.mem_cons] at hnd ⊢
    obtain ⟨n1, ⟨n2, n3⟩, n4⟩ := hnd
    exact ⟨n1, n3, fun x hx y hy => n4 x hx y (Or.inr hy)⟩
  · rw [hk]
    have hA := info_of_parts (p := p) (A := A) (fun e he => hpar e (by simp [he]))
    have hB := info_of_parts (p := p) (A := B) (fun e he => hpar e (by simp [he]))
    rw [List.map_append, List.map_append, List.map_cons, List.eraseIdx_append_of_length_le (by simp [hi])]
    simp only [List.length_map, hi, Nat.sub_self, List.eraseIdx_cons_zero, List.map_append, ← hA, ← hB]
  · intro b hb; exact R.addr_lt hp hb
  · intro x hx
    left
    rw [hsplit]
    rcases List.mem_append.mp hx with hx | hx <;> simp [hx]
  · intro b c hb hbL hc hcell
    rw [hsplit] at hb
    simp only [List.map_append, List.map_cons, List.mem_append, List.mem_cons] at hb hbL
    have hba : b = a := by
      rcases hb with hb | hb | hb
      · exact absurd (Or.inl hb) hbL
      · exact hb
      · exact absurd (Or.inr hb) hbL
    subst hba
    obtain ⟨cell, h1, h2⟩ := hcell
    have h3 := R.seg p hp
    rw [hsplit] at h3
    have h4 := seg_mid h3
    rw [h1] at h4
    cases h4
    dsimp only at h2
    subst h2
    exact ⟨_, ha⟩

end Rep
end Axl.Heap
