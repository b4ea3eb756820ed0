/-
axl_node_copy over the memory: what it makes, and that it writes only in memory of its own.
-/
import Verif.Proofs.TreeOps

namespace Axl.Heap
open Spec.Tree Spec.Tree.Forest

variable {h : Heap} {f : Forest} {ns : Nat → List (Nat × Info)}

/-- Adding a prepared item at the end, and what is left as it was. -/
theorem Rep.setChildRef_full (R : Rep h f ns) {p : Nat} (hp : f.live p = true) {a : Nat} {v : Child}
    (hr : Ready h f ns a v) :
    ∃ h', h.setChildRef p a = some h' ∧
      Rep h' (f.setKids p (f.kids p ++ [v])) (fun m => if m = p then ns p ++ [(a, ⟨some p, v⟩)] else ns m) ∧
      (∀ b, b ∉ (ns p).map Prod.fst → b ≠ a → h'.items b = h.items b) ∧
      (∀ m, m ≠ p → h'.nodes m = h.nodes m) ∧ h'.nextItem = h.nextItem ∧ h'.nextNode = h.nextNode := by
  obtain ⟨prt, hl⟩ := hr.loose
  obtain ⟨hd, hn⟩ := R.nodes p hp
  obtain ⟨h', e, C⟩ := setChildRef_spec hn rfl rfl (R.seg p hp) (R.nodup p hp) (hr.out p hp) hl
  refine ⟨h', e, R.relink hp C ?_ ?_ ?_ ?_ ?_ ?_ ?_, ?_, C.others, C.nextItem, C.nextNode⟩
  · intro b hb; exact List.mem_append_left _ hb
  · intro b hb
    rcases List.mem_append.mp hb with hb | hb
    · exact Or.inl hb
    · simp at hb; subst hb; exact Or.inr hr.out
  · rw [List.map_append, List.nodup_append]
    refine ⟨R.nodup p hp, by simp, ?_⟩
    intro x hx y hy exy
    simp at hy
    exact hr.out p hp (by rw [← hy, ← exy]; exact hx)
  · rw [List.map_append, R.info p hp, List.map_append]; rfl
  · intro b hb
    rcases List.mem_append.mp hb with hb | hb
    · exact R.addr_lt hp hb
    · simp at hb; subst hb; exact hr.lt
  · intro x hx
    rcases List.mem_append.mp hx with hx | hx
    · exact Or.inl hx
    · simp at hx; subst hx
      exact Or.inr ⟨hr.out, ⟨_, hl, rfl⟩, fun c hc => hr.held c hc⟩
  · intro b c hb hbL
    exact absurd (by simpa using hb) (by simpa using hbL)
  · intro b h1 h2
    apply C.frame
    simp only [List.mem_append, List.mem_singleton]
    rintro (h3 | h3)
    · exact h1 h3
    · exact h2 h3

/-- A new item, with its parent. -/
def alloc (h : Heap) (p : Nat) (v : Child) : Heap :=
  { h with items := h.items.put h.nextItem ⟨none, none, ⟨some p, v⟩⟩, nextItem := h.nextItem + 1 }

theorem newItem_setParent (h : Heap) (p : Nat) (v : Child) :
    (h.newItem v).1.setParent h.nextItem (some p) = some (h.alloc p v) := by
  rw [setParent_of (c := ⟨none, none, ⟨none, v⟩⟩) (by simp [newItem, Mem.put_self])]
  simp [newItem, alloc]

theorem Rep.alloc (R : Rep h f ns) (p : Nat) (v : Child) : Rep (h.alloc p v) f ns := by
  have hne : ∀ {n a : Nat}, f.live n = true → a ∈ (ns n).map Prod.fst → a ≠ h.nextItem :=
    fun hn ha e => by have := R.addr_lt hn ha; omega
  refine ⟨R.next, R.nodes, R.dead, ?_, R.nodup, R.info, R.child, ?_, ?_⟩
  · intro n hn
    exact seg_put_of_notMem (fun hm => hne hn hm rfl) (R.seg n hn)
  · intro c nd a hc hnd ha
    obtain ⟨cell, h1, h2, h3⟩ := R.holder c nd a hc hnd ha
    have : a ≠ h.nextItem := by
      intro e; subst e; rw [R.fresh _ (Nat.le_refl _)] at h1; cases h1
    exact ⟨cell, by simp [Heap.alloc, Mem.put_ne _ _ this]; exact h1, h2, h3⟩
  · intro a ha
    simp only [Heap.alloc] at ha ⊢
    rw [Mem.put_ne _ _ (by omega)]
    exact R.fresh a (by omega)

/-- Writing in an item that is in no list and holds no node. -/
theorem Rep.poke (R : Rep h f ns) {a : Nat} {cell : Cell Info} {k : TextKind} {s : List Char}
    (ha : h.items a = some cell) (hd : cell.data.data = .text k s)
    (hout : ∀ n, f.live n = true → a ∉ (ns n).map Prod.fst) (c : Cell Info) :
    Rep { h with items := h.items.put a c } f ns := by
  have hlt : a < h.nextItem := by
    apply Decidable.byContradiction
    intro hx
    rw [R.fresh a (by omega)] at ha; cases ha
  refine ⟨R.next, R.nodes, R.dead, ?_, R.nodup, R.info, R.child, ?_, ?_⟩
  · intro n hn
    exact seg_put_of_notMem (hout n hn) (R.seg n hn)
  · intro c nd b hc hnd hb
    obtain ⟨cell', h1, h2, h3⟩ := R.holder c nd b hc hnd hb
    have : b ≠ a := by
      intro e; subst e; rw [ha] at h1; cases h1; rw [hd] at h2; cases h2
    exact ⟨cell', by simp [Mem.put_ne _ _ this]; exact h1, h2, h3⟩
  · intro b hb
    dsimp only at hb ⊢
    rw [Mem.put_ne _ _ (by omega)]
    exact R.fresh b hb

/-- What a stage of the copy leaves as it was: nodes below `B` and items below `I`; and what it
makes is above. -/
structure Above (B I : Nat) (h h' : Heap) (g g' : Forest) (ns ns' : Nat → List (Nat × Info)) : Prop where
  nodes : ∀ m, m < B → h'.nodes m = h.nodes m
  items : ∀ a, a < I → h'.items a = h.items a
  nextItem : h.nextItem ≤ h'.nextItem
  nextNode : g.next ≤ g'.next
  live : ∀ m, m < B → g'.live m = g.live m
  name : ∀ m, m < B → g'.name m = g.name m
  kids : ∀ m, m < B → g'.kids m = g.kids m
  lists : ∀ m, m < B → ns' m = ns m
  made : ∀ m, B ≤ m → m < g'.next → g'.live m = true
  edges : ∀ q c, B ≤ q → Edge g' q c → B < c
  addrs : ∀ m a, B ≤ m → g'.live m = true → a ∈ (ns' m).map Prod.fst → I ≤ a

/-- `g` has the nodes of `f` as they are in `f`. -/
structure Extends (f g : Forest) : Prop where
  live : ∀ k, f.live k = true → g.live k = true
  name : ∀ k, f.live k = true → g.name k = f.name k
  kids : ∀ k, f.live k = true → g.kids k = f.kids k

theorem Extends.above {f g g' : Forest} {h h' : Heap} {ns ns' : Nat → List (Nat × Info)} {B I : Nat}
    (E : Extends f g) (T : Tame g) (hB : g.next ≤ B) (A : Above B I h h' g g' ns ns') : Extends f g' := by
  have hlt : ∀ k, f.live k = true → k < B := fun k hk => Nat.lt_of_lt_of_le (T.bound k (E.live k hk)) hB
  exact ⟨fun k hk => by rw [A.live k (hlt k hk)]; exact E.live k hk,
    fun k hk => by rw [A.name k (hlt k hk)]; exact E.name k hk,
    fun k hk => by rw [A.kids k (hlt k hk)]; exact E.kids k hk⟩

/-- Nothing points at a node just made. -/
theorem Above.root_free {g g' : Forest} {h h' : Heap} {ns ns' : Nat → List (Nat × Info)} {I : Nat}
    (T : Tame g) (A : Above g.next I h h' g g' ns ns') : ∀ q, ¬ Edge g' q g.next := by
  intro q e
  by_cases hq : q < g.next
  · have : Edge g q g.next := ⟨by rw [← A.live q hq]; exact e.1, by rw [← A.kids q hq]; exact e.2⟩
    exact Nat.lt_irrefl _ (T.bound _ (T.closed _ _ this))
  · exact Nat.lt_irrefl _ (A.edges q _ (by omega) e)

theorem Above.reach {g g' : Forest} {h h' : Heap} {ns ns' : Nat → List (Nat × Info)} {B I : Nat}
    (A : Above B I h h' g g' ns ns') {n m : Nat} (hn : B ≤ n) (hr : Reach g' n m) : B ≤ m := by
  induction hr with
  | refl => exact hn
  | tail _ e ih => exact Nat.le_of_lt (A.edges _ _ ih e)

/-- One stage after another. -/
theorem Above.trans {B I B1 I1 : Nat} {h0 h1 h2 : Heap} {g0 g1 g2 : Forest}
    {ns0 ns1 ns2 : Nat → List (Nat × Info)}
    (A : Above B I h0 h1 g0 g1 ns0 ns1) (A1 : Above B1 I1 h1 h2 g1 g2 ns1 ns2) (hB : B ≤ B1) (hI : I ≤ I1)
    (hb : B1 ≤ g1.next) : Above B I h0 h2 g0 g2 ns0 ns2 := by
  constructor
  · intro m hm; rw [A1.nodes m (by omega)]; exact A.nodes m hm
  · intro a ha; rw [A1.items a (by omega)]; exact A.items a ha
  · exact Nat.le_trans A.nextItem A1.nextItem
  · exact Nat.le_trans A.nextNode A1.nextNode
  · intro m hm; rw [A1.live m (by omega)]; exact A.live m hm
  · intro m hm; rw [A1.name m (by omega)]; exact A.name m hm
  · intro m hm; rw [A1.kids m (by omega)]; exact A.kids m hm
  · intro m hm; rw [A1.lists m (by omega)]; exact A.lists m hm
  · intro m h1 h2
    by_cases hm : m < B1
    · rw [A1.live m hm]; exact A.made m h1 (by omega)
    · exact A1.made m (by omega) h2
  · intro q c hq e
    by_cases hm : q < B1
    · exact A.edges q c hq ⟨by rw [← A1.live q hm]; exact e.1, by rw [← A1.kids q hm]; exact e.2⟩
    · have := A1.edges q c (by omega) e
      omega
  · intro m a hm hl ha
    by_cases hm1 : m < B1
    · rw [A1.lists m hm1] at ha
      exact A.addrs m a hm (by rw [← A1.live m hm1]; exact hl) ha
    · have := A1.addrs m a (by omega) hl ha
      omega

/-- A copy stays a copy while the nodes above `B` stay. -/
theorem sameKids_keep {f g g' : Forest} {B : Nat}
    (hc : ∀ q c, B < q → Edge g q c → B < c)
    (hk : ∀ m, B < m → g.live m = true → g'.live m = true ∧ g'.name m = g.name m ∧ g'.kids m = g.kids m)
    {l l' : List Child} (S : SameKids f g l l') (hl : ∀ c, Child.node c ∈ l' → B < c) : SameKids f g' l l' := by
  refine SameKids.rec (motive_1 := fun n m _ => B < m → SameTree f g' n m)
    (motive_2 := fun l l' _ => (∀ c, Child.node c ∈ l' → B < c) → SameKids f g' l l') ?_ ?_ ?_ ?_ S hl
  · intro n m h1 h2 h3 ih hm
    obtain ⟨k1, k2, k3⟩ := hk m hm h1
    refine .mk k1 (by rw [k2]; exact h2) ?_
    rw [k3]
    exact ih fun c hcm => hc m c hm ⟨h1, hcm⟩
  · intro _; exact .nil
  · intro k s l l' _ ih hl
    exact .text (ih fun c h => hl c (by simp [h]))
  · intro n m l l' _ _ ih1 ih2 hl
    exact .node (ih1 (hl _ (by simp))) (ih2 fun c h => hl c (by simp [h]))

theorem sameTree_keep {f g g' : Forest} {B : Nat}
    (hc : ∀ q c, B < q → Edge g q c → B < c)
    (hk : ∀ m, B < m → g.live m = true → g'.live m = true ∧ g'.name m = g.name m ∧ g'.kids m = g.kids m)
    {n m : Nat} (S : SameTree f g n m) (hm : B < m) : SameTree f g' n m := by
  cases S with
  | mk h1 h2 h3 =>
    obtain ⟨k1, k2, k3⟩ := hk m hm h1
    refine .mk k1 (by rw [k2]; exact h2) ?_
    rw [k3]
    exact sameKids_keep hc hk h3 fun c hcm => hc m c hm ⟨h1, hcm⟩

theorem sameKids_append {f g : Forest} : ∀ {l1 l2 r1 r2 : List Child}, SameKids f g l1 r1 → SameKids f g l2 r2 →
    SameKids f g (l1 ++ l2) (r1 ++ r2)
  | _, _, _, _, .nil, h => h
  | _, _, _, _, .text h1, h => .text (sameKids_append h1 h)
  | _, _, _, _, .node h1 h2, h => .node h1 (sameKids_append h2 h)

/-- The step of the loop over the children, on the forest. -/
def copyKid (f : Forest) (d p : Nat) (acc : Forest) (c : Child) : Forest :=
  match c with
  | .text k s => acc.setKids p (acc.kids p ++ [.text k s])
  | .node m => (f.addCopy d acc m).setKids p ((f.addCopy d acc m).kids p ++ [.node acc.next])

theorem addCopy_succ (f : Forest) (d : Nat) (g : Forest) (n : Nat) :
    f.addCopy (d + 1) g n = (f.kids n).foldl (copyKid f d g.next) (g.add (f.name n)) := rfl

/-- A child more for the node being made. -/
theorem Above.addKid {B I : Nat} {h0 h h' : Heap} {g0 g : Forest} {ns0 ns : Nat → List (Nat × Info)}
    (A : Above B I h0 h g0 g ns0 ns) {a : Nat} {i : Info} {v : Child}
    (hnodes : ∀ m, m < B → h'.nodes m = h.nodes m) (hitems : ∀ b, b < I → h'.items b = h.items b)
    (hnext : h.nextItem ≤ h'.nextItem) (ha : I ≤ a) (hv : ∀ c, v = .node c → B < c) :
    Above B I h0 h' g0 (g.setKids B (g.kids B ++ [v])) ns0
      (fun m => if m = B then ns B ++ [(a, i)] else ns m) := by
  constructor
  · intro m hm; rw [hnodes m hm]; exact A.nodes m hm
  · intro b hb; rw [hitems b hb]; exact A.items b hb
  · exact Nat.le_trans A.nextItem hnext
  · exact A.nextNode
  · exact A.live
  · exact A.name
  · intro m hm
    have : m ≠ B := by omega
    simp only [setKids, this, if_false]; exact A.kids m hm
  · intro m hm
    have : m ≠ B := by omega
    simp only [this, if_false]; exact A.lists m hm
  · exact A.made
  · intro q c hq e
    rw [edge_setKids] at e
    by_cases hqB : q = B
    · subst hqB
      simp only [if_true] at e
      rcases List.mem_append.mp e.2 with h1 | h1
      · exact A.edges q c hq ⟨e.1, h1⟩
      · simp at h1; exact hv c h1.symm
    · simp only [hqB, if_false] at e
      exact A.edges q c hq e
  · intro m b hm hl hb
    by_cases hmB : m = B
    · subst hmB
      simp only [if_true, List.map_append, List.mem_append] at hb
      rcases hb with hb | hb
      · exact A.addrs m b hm hl hb
      · simp at hb; omega
    · simp only [hmB, if_false] at hb
      exact A.addrs m b hm hl hb

/-- What copying a node amounts to, at some depth. -/
def Copies (f : Forest) (d : Nat) : Prop :=
  ∀ (h : Heap) (g : Forest) (ns : Nat → List (Nat × Info)) (n : Nat), Rep h g ns → Tame g → Extends f g →
    f.live n = true → Depth f d n →
    ∃ h' ns', nodeCopyDepth d h n = some (h', g.next) ∧ Rep h' (f.addCopy d g n) ns' ∧
      Tame (f.addCopy d g n) ∧ Above g.next h.nextItem h h' g (f.addCopy d g n) ns ns' ∧
      SameTree f (f.addCopy d g n) n g.next ∧ g.next < (f.addCopy d g n).next

/-- The state while the children of `n` are copied into the node `g0.next`. -/
structure Copying (f : Forest) (n : Nat) (h0 : Heap) (g0 : Forest) (ns0 : Nat → List (Nat × Info))
    (done : List Child) (h : Heap) (g : Forest) (ns : Nat → List (Nat × Info)) : Prop where
  old : ∀ k, f.live k = true → k < g0.next
  rep : Rep h g ns
  tame : Tame g
  ext : Extends f g
  live : g.live g0.next = true
  name : g.name g0.next = f.name n
  lt : g0.next < g.next
  above : Above g0.next h0.nextItem h0 h g0 g ns0 ns
  same : SameKids f g done (g.kids g0.next)

theorem Copying.text {f : Forest} {n : Nat} {h0 : Heap} {g0 : Forest} {ns0 : Nat → List (Nat × Info)}
    {done : List Child} {h : Heap} {g : Forest} {ns : Nat → List (Nat × Info)}
    (C : Copying f n h0 g0 ns0 done h g ns) (k : TextKind) (s : List Char) :
    ∃ h' ns', (h.alloc g0.next (.text k s)).setChildRef g0.next h.nextItem = some h' ∧
      Copying f n h0 g0 ns0 (done ++ [.text k s]) h' (copyKid f d g0.next g (.text k s)) ns' := by
  obtain ⟨O, R, T, E, L, N, lt, A, S⟩ := C
  have R1 := R.alloc g0.next (.text k s)
  have hout : ∀ m, g.live m = true → h.nextItem ∉ (ns m).map Prod.fst :=
    fun m hm ha => by have := R.addr_lt hm ha; omega
  have hr : Rep.Ready (h.alloc g0.next (.text k s)) g ns h.nextItem (.text k s) :=
    ⟨⟨some g0.next, by simp [alloc, Mem.put_self]⟩, hout, by simp [alloc], fun c hc => by cases hc⟩
  obtain ⟨h', e, R2, fi, fn, ni, nn⟩ := R1.setChildRef_full L hr
  have A' := A.addKid (h' := h') (a := h.nextItem) (i := ⟨some g0.next, .text k s⟩) (v := .text k s)
    (fun m hm => fn m (by omega))
    (fun b hb => by
      have h1 : b ∉ (ns g0.next).map Prod.fst := fun hm => by
        have := A.addrs _ _ (Nat.le_refl _) L hm; omega
      have h2 : b ≠ h.nextItem := by have := A.nextItem; omega
      rw [fi b h1 h2]
      simp only [alloc]
      exact Mem.put_ne _ _ h2)
    (by rw [ni]; simp [alloc]) A.nextItem (fun c hc => by cases hc)
  have T' : Tame (g.setKids g0.next (g.kids g0.next ++ [.text k s])) :=
    tame_setKids T (v := .text k s) rfl (fun c hc => by simpa using hc)
  have E' : Extends f (g.setKids g0.next (g.kids g0.next ++ [.text k s])) := by
    refine ⟨E.live, E.name, fun m hm => ?_⟩
    simp only [setKids]
    by_cases e : m = g0.next
    · have := O m hm; omega
    · simp only [e, if_false]; exact E.kids m hm
  refine ⟨h', _, e, O, R2, T', E', L, N, lt, A', ?_⟩
  have hk : (g.setKids g0.next (g.kids g0.next ++ [.text k s])).kids g0.next =
      g.kids g0.next ++ [.text k s] := by simp [setKids]
  simp only [copyKid, hk]
  refine sameKids_append (sameKids_keep (B := g0.next) (fun q c hq e => A.edges q c (by omega) e) ?_ S
    (fun c hc => A.edges _ c (Nat.le_refl _) ⟨L, hc⟩)) (.text .nil)
  intro m hm hl
  have : m ≠ g0.next := by omega
  exact ⟨hl, rfl, by simp [setKids, this]⟩

theorem Copying.node {f : Forest} {n d : Nat} {h0 : Heap} {g0 : Forest} {ns0 : Nat → List (Nat × Info)}
    {done : List Child} {h : Heap} {g : Forest} {ns : Nat → List (Nat × Info)}
    (C : Copying f n h0 g0 ns0 done h g ns) (rec : Copies f d) {c : Nat} (hc : f.live c = true)
    (hd : Depth f d c) :
    ∃ h2 h3 h4 h' ns', nodeCopyDepth d (h.alloc g0.next (.text .content [])) c = some (h2, g.next) ∧
      h2.setHolder g.next (some h.nextItem) = some h3 ∧ h3.setData h.nextItem (.node g.next) = some h4 ∧
      h4.setChildRef g0.next h.nextItem = some h' ∧
      Copying f n h0 g0 ns0 (done ++ [.node c]) h' (copyKid f d g0.next g (.node c)) ns' := by
  obtain ⟨O, R, T, E, L, N, lt, A, S⟩ := C
  have R1 := R.alloc g0.next (.text .content [])
  obtain ⟨h2, ns2, e2, R2, T2, A2, S2, lt2⟩ := rec _ g ns c R1 T E hc hd
  have hI : h0.nextItem ≤ h.nextItem := A.nextItem
  have A1 : Above g0.next h0.nextItem h0 (h.alloc g0.next (.text .content [])) g0 g ns0 ns :=
    ⟨A.nodes, fun a ha => by
        rw [← A.items a ha]; simp only [alloc]; exact Mem.put_ne _ _ (by omega),
      by simp only [alloc]; omega, A.nextNode, A.live, A.name, A.kids, A.lists, A.made, A.edges, A.addrs⟩
  have A12 := A1.trans A2 (by omega) (by simp only [alloc]; omega) (Nat.le_refl _)
  have hp2 : (f.addCopy d g c).kids g0.next = g.kids g0.next := A2.kids _ lt
  have L2 : (f.addCopy d g c).live g0.next = true := by rw [A2.live _ lt]; exact L
  have Lr : (f.addCopy d g c).live g.next = true := A2.made _ (Nat.le_refl _) lt2
  -- the item prepared before
  have hi2 : h2.items h.nextItem = some ⟨none, none, ⟨some g0.next, .text .content []⟩⟩ := by
    rw [A2.items _ (by simp [alloc])]; simp [alloc, Mem.put_self]
  have hout : ∀ m, (f.addCopy d g c).live m = true → h.nextItem ∉ (ns2 m).map Prod.fst := by
    intro m hm ha
    by_cases hlt : m < g.next
    · rw [A2.lists m hlt] at ha
      have := R.addr_lt (by rw [← A2.live m hlt]; exact hm) ha
      omega
    · have := A2.addrs m _ (by omega) hm ha
      simp only [alloc] at this; omega
  have R3 := R2.poke hi2 rfl hout ⟨none, none, ⟨some g0.next, .node g.next⟩⟩
  have hfree := A2.root_free T
  obtain ⟨h4, e4, R4, hr4, i4, n4⟩ := R3.setHolder Lr hfree
    (a := h.nextItem) ⟨some g0.next, by simp [Mem.put_self]⟩ hout
    (by have := A2.nextItem; simp [alloc] at this; simp only; omega)
  obtain ⟨hdr, hnr⟩ := R2.nodes _ Lr
  have e3 : h2.setHolder g.next (some h.nextItem) = some (h2.putNode g.next
      ⟨(f.addCopy d g c).name g.next, headAddr (ns2 g.next) none, lastAddr (ns2 g.next) none, some h.nextItem⟩) :=
    setHolder_of hnr _
  have e3' : (h2.putNode g.next
      ⟨(f.addCopy d g c).name g.next, headAddr (ns2 g.next) none, lastAddr (ns2 g.next) none,
        some h.nextItem⟩).setData h.nextItem (.node g.next) = some h4 := by
    rw [setHolder_of (by exact hnr)] at e4
    rw [setData_of (by exact hi2), ← e4]
    rfl
  obtain ⟨h', e5, R5, fi, fn, ni, nn⟩ := R4.setChildRef_full L2 hr4
  have hn4 : ∀ m, m ≠ g.next → h4.nodes m = h2.nodes m := by
    intro m hm
    rw [setHolder_of (by exact hnr)] at e4
    cases e4
    exact putNode_ne _ _ hm
  have A' := A12.addKid (h' := h') (a := h.nextItem) (i := ⟨some g0.next, .node g.next⟩) (v := .node g.next)
    (fun m hm => by rw [fn m (by omega), hn4 m (by omega)])
    (fun b hb => by
      have h1 : b ∉ (ns2 g0.next).map Prod.fst := fun hm => by
        have := A12.addrs _ _ (Nat.le_refl _) L2 hm; omega
      rw [fi b h1 (by omega), i4]
      exact Mem.put_ne _ _ (by omega))
    (by rw [ni, n4]; exact Nat.le_refl _) hI (fun c hc => by cases hc; exact lt)
  have hmay : (f.addCopy d g c).mayGo g0.next (.node g.next) = true := by
    simp only [mayGo, Bool.and_eq_true, Bool.not_eq_true']
    refine ⟨⟨Lr, ?_⟩, ?_⟩
    · rw [← Bool.not_eq_true, attached_iff T2]
      rintro ⟨q, hq⟩; exact hfree q hq
    · rw [← Bool.not_eq_true, below_iff T2 Lr]
      intro hr
      have := A2.reach (Nat.le_refl _) hr
      omega
  have T' : Tame ((f.addCopy d g c).setKids g0.next ((f.addCopy d g c).kids g0.next ++ [.node g.next])) :=
    tame_setKids T2 hmay (fun c hc => by simpa using hc)
  have E2 : Extends f (f.addCopy d g c) := E.above T (Nat.le_refl _) A2
  have E' : Extends f ((f.addCopy d g c).setKids g0.next ((f.addCopy d g c).kids g0.next ++ [.node g.next])) := by
    refine ⟨E2.live, E2.name, fun m hm => ?_⟩
    simp only [setKids]
    by_cases e : m = g0.next
    · have := O m hm; omega
    · simp only [e, if_false]; exact E2.kids m hm
  refine ⟨h2, _, h4, h', _, e2, e3, e3', e5, O, R5, T', E', L2, ?_, Nat.lt_trans lt lt2, A', ?_⟩
  · simp only [copyKid, setKids]
    rw [A2.name _ lt]; exact N
  · have hk : ((f.addCopy d g c).setKids g0.next ((f.addCopy d g c).kids g0.next ++ [.node g.next])).kids g0.next =
        g.kids g0.next ++ [.node g.next] := by simp [setKids, hp2]
    simp only [copyKid, hk]
    have keep : ∀ m, g0.next < m → (f.addCopy d g c).live m = true →
        ((f.addCopy d g c).setKids g0.next ((f.addCopy d g c).kids g0.next ++ [.node g.next])).live m = true ∧
        ((f.addCopy d g c).setKids g0.next ((f.addCopy d g c).kids g0.next ++ [.node g.next])).name m =
          (f.addCopy d g c).name m ∧
        ((f.addCopy d g c).setKids g0.next ((f.addCopy d g c).kids g0.next ++ [.node g.next])).kids m =
          (f.addCopy d g c).kids m := by
      intro m hm hl
      have : m ≠ g0.next := by omega
      exact ⟨hl, rfl, by simp [setKids, this]⟩
    have cl : ∀ q x, g0.next < q → Edge (f.addCopy d g c) q x → g0.next < x :=
      fun q x hq e => A12.edges q x (by omega) e
    refine sameKids_append (sameKids_keep (B := g0.next) cl keep ?_ ?_) (.node (sameTree_keep cl keep S2 lt) .nil)
    · refine sameKids_keep (B := g0.next) (fun q c hq e => A.edges q c (by omega) e) ?_ S
        (fun c hc => A.edges _ c (Nat.le_refl _) ⟨L, hc⟩)
      intro m hm hl
      have hb : m < g.next := T.bound m hl
      exact ⟨by rw [A2.live m hb]; exact hl, A2.name m hb, A2.kids m hb⟩
    · intro c hc; exact A.edges _ c (Nat.le_refl _) ⟨L, hc⟩

theorem copyLoop_spec {f : Forest} {n d : Nat} {h0 : Heap} {g0 : Forest} {ns0 : Nat → List (Nat × Info)}
    (Tf : Tame f) (rec : Copies f d) (hn : n < g0.next) (hnl : f.live n = true) (hd : ∀ c, Edge f n c → Depth f d c) :
    ∀ (S P : List (Nat × Info)) (k : Nat) (done : List Child) (h : Heap) (g : Forest)
      (ns : Nat → List (Nat × Info)), S.length ≤ k → ns0 n = P ++ S →
      Copying f n h0 g0 ns0 done h g ns →
      ∃ h' ns', copyLoop (nodeCopyDepth d) g0.next k h (headAddr S none) = some h' ∧
        Copying f n h0 g0 ns0 (done ++ S.map (·.2.data)) h'
          ((S.map (·.2.data)).foldl (copyKid f d g0.next) g) ns'
  | [], _, k, done, h, g, ns, _, _, C => ⟨h, ns, by cases k <;> rfl, by simpa using C⟩
  | (a, i) :: S, P, 0, done, h, g, ns, hk, _, _ => by simp at hk
  | (a, i) :: S, P, k + 1, done, h, g, ns, hk, hs, C => by
    have hl : g.live n = true := C.ext.live n hnl
    have hns : ns n = P ++ (a, i) :: S := by rw [C.above.lists n hn]; exact hs
    have seg := C.rep.seg n hl
    rw [hns] at seg
    have hcell := seg_mid seg
    have hent := C.rep.entry hl (a := a) (i := i) (by rw [hns]; simp)
    have halt : a < h.nextItem := C.rep.addr_lt hl (by rw [hns]; simp)
    -- the loop goes on from the same item
    have next : ∀ {done' h' g' ns'}, Copying f n h0 g0 ns0 done' h' g' ns' →
        ∃ cell, h'.items a = some cell ∧ cell.next = headAddr S none := by
      intro done' h' g' ns' C'
      have hns' : ns' n = P ++ (a, i) :: S := by rw [C'.above.lists n hn]; exact hs
      have seg' := C'.rep.seg n (C'.ext.live n hnl)
      rw [hns'] at seg'
      exact ⟨_, seg_mid seg', rfl⟩
    obtain ⟨par, v⟩ := i
    cases v with
    | text kd s =>
      obtain ⟨h1, ns1, e1, C1⟩ := C.text (d := d) kd s
      obtain ⟨cell, c1, c2⟩ := next C1
      obtain ⟨h', ns', e', C'⟩ := copyLoop_spec Tf rec hn hnl hd S (P ++ [(a, ⟨par, .text kd s⟩)]) k _ h1 _ ns1
        (by simpa using hk) (by rw [hs]; simp) C1
      refine ⟨h', ns', ?_, ?_⟩
      · simp only [headAddr_cons, copyLoop, itemCopyWith, hcell, newItem_setParent, Option.map_some, e1, c1, c2]
        exact e'
      · simpa using C'
    | node c =>
      have ec : Edge f n c := ⟨hnl, by rw [← C.ext.kids n hnl]; exact hent.2⟩
      have hcl : f.live c = true := Tf.closed _ _ ec
      obtain ⟨h2, h3, h4, h5, ns1, e2, e3, e4, e5, C1⟩ := C.node rec hcl (hd c ec)
      obtain ⟨cell, c1, c2⟩ := next C1
      obtain ⟨h', ns', e', C'⟩ := copyLoop_spec Tf rec hn hnl hd S (P ++ [(a, ⟨par, .node c⟩)]) k _ h5 _ ns1
        (by simpa using hk) (by rw [hs]; simp) C1
      refine ⟨h', ns', ?_, ?_⟩
      · simp only [headAddr_cons, copyLoop, itemCopyWith, hcell, newItem_setParent, Option.bind_eq_bind,
          Option.bind_some, e2, e3, e4, e5, c1, c2]
        exact e'
      · simpa using C'

theorem copying_start {n : Nat} {g : Forest} (R : Rep h g ns) (T : Tame g) (E : Extends f g) (hn : f.live n = true) :
    Copying f n h g ns [] (h.create (f.name n)).1 (g.add (f.name n)) (fun m => if m = g.next then [] else ns m) := by
  have hl := E.live n hn
  have I1 : Inv (h.create (f.name n)).1 (g.add (f.name n)) := inv_create ⟨⟨ns, R⟩, T⟩ (f.name n)
  have R1 := R.create T (f.name n)
  have hlt : n < g.next := T.bound n hl
  refine ⟨fun k hk => T.bound k (E.live k hk), R1, I1.2, ?_, by simp [add], by simp [add], by simp [add], ?_, ?_⟩
  · have ne : ∀ k, f.live k = true → k ≠ g.next := fun k hk e => by
      have := T.bound k (E.live k hk); omega
    exact ⟨fun k hk => by simp [add, ne k hk, E.live k hk], fun k hk => by simp [add, ne k hk, E.name k hk],
      fun k hk => by simp [add, ne k hk, E.kids k hk]⟩
  · constructor
    · intro m hm
      have : m ≠ g.next := by omega
      simp [create, R.next, this]
    · intro a _; rfl
    · exact Nat.le_refl _
    · simp [add]
    · intro m hm
      have : m ≠ g.next := by omega
      simp [add, this]
    · intro m hm
      have : m ≠ g.next := by omega
      simp [add, this]
    · intro m hm
      have : m ≠ g.next := by omega
      simp [add, this]
    · intro m hm
      have : m ≠ g.next := by omega
      simp [add, this]
    · intro m h1 h2
      simp only [add] at h2 ⊢
      have : m = g.next := by omega
      simp [this]
    · intro q c hq e
      obtain ⟨e1, e2⟩ := e
      simp only [add] at e1 e2
      by_cases hqn : q = g.next
      · simp [hqn] at e2
      · simp only [hqn, if_false] at e1
        have := T.bound q e1
        omega
    · intro m a hm hlv ha
      simp only [add] at hlv
      by_cases hqn : m = g.next
      · simp [hqn] at ha
      · simp only [hqn, if_false] at hlv
        have := T.bound m hlv
        omega
  · simp [add]; exact .nil

theorem copies (Tf : Tame f) : ∀ d, Copies f d
  | 0 => fun _ _ _ _ _ _ _ _ hd => absurd hd (by simp [Depth])
  | d + 1 => by
    intro h g ns n R T E hn hd
    have hl := E.live n hn
    obtain ⟨hdr, hnode⟩ := R.nodes n hl
    have hlt : n < g.next := T.bound n hl
    have C := copying_start R T E hn
    obtain ⟨h', ns', e, C'⟩ := copyLoop_spec Tf (copies Tf d) hlt hn (fun c ec => hd c ec) (ns n) [] h.nextItem []
      _ _ _ (R.length_le hl) rfl C
    have hkid : (ns n).map (·.2.data) = f.kids n := by rw [← R.kids_eq hl, E.kids n hn]
    rw [hkid, List.nil_append] at C'
    rw [← addCopy_succ] at C'
    refine ⟨h', ns', ?_, C'.rep, C'.tame, C'.above, .mk C'.live C'.name C'.same, C'.lt⟩
    simp only [nodeCopyDepth, hnode, E.name n hn]
    rw [show (h.create (f.name n)).2 = g.next from R.next, e]
    rfl

theorem inv_copy (I : Inv h f) {n : Nat} (hn : f.live n = true) (childs : Bool) :
    ∃ h', h.nodeCopy n childs = some (h', f.next) ∧ Inv h' (f.step (.copy n childs)) := by
  obtain ⟨⟨ns, R⟩, T⟩ := I
  cases childs with
  | false =>
    obtain ⟨hd, hx⟩ := R.nodes n hn
    refine ⟨(h.create (f.name n)).1, ?_, inv_create ⟨⟨ns, R⟩, T⟩ (f.name n)⟩
    simp only [nodeCopy, hx, Option.map_some]
    rw [← R.next]; rfl
  | true =>
    obtain ⟨h', ns', e, R', T', _⟩ := copies T f.next h f ns n R T
      ⟨fun _ h => h, fun _ _ => rfl, fun _ _ => rfl⟩ hn (depth_next T hn)
    refine ⟨h', ?_, ⟨ns', R'⟩, T'⟩
    simp only [nodeCopy, R.next]; exact e

end Axl.Heap
