/-
Freeing a node frees everything below it and nothing else.
-/
import Verif.Proofs.TreeRep

namespace Axl.Heap
open Spec.Tree Spec.Tree.Forest

variable {h : Heap} {f : Forest} {ns : Nat → List (Nat × Info)}

/-- The nodes below the items of a list. -/
def FootN (f : Forest) (S : List (Nat × Info)) (m : Nat) : Prop :=
  ∃ a c, (a, c) ∈ S ∧ ∃ x, c.data = .node x ∧ Reach f x m

/-- The items of a list and those of the nodes below. -/
def FootI (f : Forest) (ns : Nat → List (Nat × Info)) (S : List (Nat × Info)) (a : Nat) : Prop :=
  a ∈ S.map Prod.fst ∨ ∃ m, FootN f S m ∧ a ∈ (ns m).map Prod.fst

/-- `h2` is `h1` without the nodes in `N` and the items in `I`. -/
structure Without (h1 h2 : Heap) (N I : Nat → Prop) : Prop where
  goneN : ∀ m, N m → h2.nodes m = none
  keptN : ∀ m, ¬ N m → h2.nodes m = h1.nodes m
  goneI : ∀ a, I a → h2.items a = none
  keptI : ∀ a, ¬ I a → h2.items a = h1.items a
  nextItem : h2.nextItem = h1.nextItem
  nextNode : h2.nextNode = h1.nextNode

theorem footN_cons {S : List (Nat × Info)} {a : Nat} {i : Info} {m : Nat} :
    FootN f ((a, i) :: S) m ↔ (∃ x, i.data = .node x ∧ Reach f x m) ∨ FootN f S m := by
  unfold FootN
  constructor
  · rintro ⟨b, c, hm, x, hx, hr⟩
    rcases List.mem_cons.mp hm with e | hm
    · cases e; exact Or.inl ⟨x, hx, hr⟩
    · exact Or.inr ⟨b, c, hm, x, hx, hr⟩
  · rintro (⟨x, hx, hr⟩ | ⟨b, c, hm, x, hx, hr⟩)
    · exact ⟨a, i, by simp, x, hx, hr⟩
    · exact ⟨b, c, by simp [hm], x, hx, hr⟩

/-- `nodeFreeDepth` frees what is below `c`, starting from any memory that is intact there. -/
def FreesBelow (h : Heap) (f : Forest) (ns : Nat → List (Nat × Info)) (d : Nat) (c : Nat) : Prop :=
  ∀ h1 : Heap, ∀ nd, h.nodes c = some nd →
    (∀ m, Reach f c m → h1.nodes m = h.nodes m) →
    (∀ m a, Reach f c m → a ∈ (ns m).map Prod.fst → h1.items a = h.items a) →
    (∀ a, nd.holder = some a → h1.items a = h.items a) →
    h1.nextItem = h.nextItem →
    ∃ h2, nodeFreeDepth d h1 c = some h2 ∧
      Without h1 h2 (Reach f c) (fun a => nd.holder = some a ∨ ∃ m, Reach f c m ∧ a ∈ (ns m).map Prod.fst)

theorem freeItem_of {h : Heap} {a : Nat} {c : Cell Info} (hc : h.items a = some c) :
    h.freeItem a = some { h with items := fun b => if b = a then none else h.items b } := by
  simp [freeItem, Mem.free, hc]

theorem freeLoop_frees (R : Rep h f ns) (T : Tame f) {n : Nat} (hn : f.live n = true) {d : Nat}
    (hd : ∀ c, Edge f n c → FreesBelow h f ns d c) :
    ∀ (S P : List (Nat × Info)) (k : Nat) (h1 : Heap), ns n = P ++ S → S.length ≤ k →
    (∀ m, FootN f S m → h1.nodes m = h.nodes m) →
    (∀ a, FootI f ns S a → h1.items a = h.items a) →
    h1.nextItem = h.nextItem →
    ∃ h2, freeLoop (nodeFreeDepth d) k h1 (headAddr S none) = some h2 ∧
      Without h1 h2 (FootN f S) (FootI f ns S) := by
  intro S
  induction S with
  | nil =>
    intro P k h1 _ _ _ _ _
    refine ⟨h1, by cases k <;> rfl, ?_, ?_, ?_, ?_, rfl, rfl⟩
    · rintro m ⟨a, c, hm, _⟩; cases hm
    · intros; rfl
    · rintro a (h | ⟨m, ⟨b, c, hm, _⟩, _⟩)
      · simp at h
      · cases hm
    · intros; rfl
  | cons e S ih =>
    obtain ⟨a, i⟩ := e
    intro P k h1 hsplit hk hN hI hni
    cases k with
    | zero => simp at hk
    | succ k =>
    have hsplit' : ns n = (P ++ [(a, i)]) ++ S := by rw [hsplit]; simp
    have hmem : (a, i) ∈ ns n := by rw [hsplit]; simp
    obtain ⟨hpar, hdat⟩ := R.entry hn hmem
    have hcell : h.items a = some ⟨lastAddr P none, headAddr S none, i⟩ := by
      have := R.seg n hn
      rw [hsplit] at this
      exact seg_mid this
    have hcell1 : h1.items a = some ⟨lastAddr P none, headAddr S none, i⟩ := by
      rw [hI a (Or.inl (by simp))]; exact hcell
    have hnd := R.nodup n hn
    have haS : a ∉ S.map Prod.fst := by
      rw [hsplit] at hnd
      simp only [List.map_append, List.map_cons, List.nodup_append, List.nodup_cons] at hnd
      exact hnd.2.1.1
    have hSsub : ∀ e ∈ S, e ∈ ns n := fun e he => by rw [hsplit]; simp [he]
    -- nodes below the rest hang from other children of `n`
    have hrest : ∀ m, FootN f S m → f.live m = true ∧ m ≠ n := by
      rintro m ⟨b, c, hm, x, hx, hr⟩
      obtain ⟨hp2, hd2⟩ := R.entry hn (hSsub _ hm)
      rw [hx] at hd2
      have e : Edge f n x := ⟨hn, hd2⟩
      refine ⟨T.reach_live (T.closed _ _ e) hr, ?_⟩
      rintro rfl
      exact T.no_cycle e hr
    -- the item itself is not in the rest
    have ha_rest : ¬ FootI f ns S a := by
      rintro (hm | ⟨m, hm, ham⟩)
      · exact haS hm
      · obtain ⟨hl, hne⟩ := hrest m hm
        exact hne (R.unique hl hn ham (entry_mem hmem))
    cases hi : i.data with
    | text kd s =>
      let h1' : Heap := { h1 with items := fun b => if b = a then none else h1.items b }
      obtain ⟨h2, e2, W⟩ := ih (P ++ [(a, i)]) k h1' hsplit' (by simpa using hk)
        (fun m hm => hN m (footN_cons.mpr (Or.inr hm)))
        (by
          intro b hb
          have : b ≠ a := fun e => ha_rest (e ▸ hb)
          simp only [h1', this, if_false]
          apply hI
          rcases hb with hb | ⟨m, hm, hbm⟩
          · exact Or.inl (by simp at hb ⊢; exact Or.inr hb)
          · exact Or.inr ⟨m, footN_cons.mpr (Or.inr hm), hbm⟩)
        hni
      refine ⟨h2, ?_, ?_⟩
      · show freeLoop _ (k + 1) h1 (some a) = _
        simp only [freeLoop, hcell1, itemFreeWith, hi]
        rw [freeItem_of hcell1]
        exact e2
      · have hfN : ∀ m, FootN f ((a, i) :: S) m ↔ FootN f S m := by
          intro m
          rw [footN_cons]
          constructor
          · rintro (⟨x, hx, _⟩ | h)
            · rw [hi] at hx; cases hx
            · exact h
          · exact Or.inr
        have hfI : ∀ b, FootI f ns ((a, i) :: S) b ↔ b = a ∨ FootI f ns S b := by
          intro b
          unfold FootI
          simp only [List.map_cons, List.mem_cons, hfN, or_assoc]
        constructor
        · intro m hm; exact W.goneN m ((hfN m).mp hm)
        · intro m hm; exact W.keptN m (fun h => hm ((hfN m).mpr h))
        · intro b hb
          rcases (hfI b).mp hb with rfl | hb
          · rw [W.keptI b ha_rest]; simp [h1']
          · exact W.goneI b hb
        · intro b hb
          rw [hfI, not_or] at hb
          rw [W.keptI b hb.2]; simp [h1', hb.1]
        · exact W.nextItem
        · exact W.nextNode
    | node x =>
      rw [hi] at hdat
      have ex : Edge f n x := ⟨hn, hdat⟩
      have hxl := T.closed _ _ ex
      have hi' : i = ⟨some n, .node x⟩ := by cases i; simp at hpar hi ⊢; exact ⟨hpar, hi⟩
      obtain ⟨nd, hnd1, hhold⟩ := R.child n a x hn (hi' ▸ hmem)
      -- what is below `x` is apart from the rest
      have hap : ∀ m, Reach f x m → ¬ FootN f S m := by
        rintro m hr ⟨b, c, hm, y, hy, hr2⟩
        obtain ⟨hp2, hd2⟩ := R.entry hn (hSsub _ hm)
        rw [hy] at hd2
        have ey : Edge f n y := ⟨hn, hd2⟩
        by_cases hxy : x = y
        · subst hxy
          have hc' : c = ⟨some n, .node x⟩ := by cases c; simp at hp2 hy ⊢; exact ⟨hp2, hy⟩
          obtain ⟨nd', hnd1', hhold'⟩ := R.child n b x hn (hc' ▸ hSsub _ hm)
          rw [hnd1] at hnd1'; cases hnd1'
          rw [hhold] at hhold'; cases hhold'
          exact haS (entry_mem hm)
        · exact siblings_apart T R.single ex ey hxy hr hr2
      have hapI : ∀ m b, Reach f x m → b ∈ (ns m).map Prod.fst → ¬ FootI f ns S b := by
        rintro m b hr hb (hm | ⟨m', hm', hbm⟩)
        · have hml := T.reach_live hxl hr
          have : n = m := R.unique hn hml (by
            rw [hsplit]; simp only [List.map_append, List.map_cons, List.mem_append, List.mem_cons]
            exact Or.inr (Or.inr hm)) hb
          subst this
          exact T.no_cycle ex hr
        · have hml := T.reach_live hxl hr
          have := R.unique (hrest m' hm').1 hml hbm hb
          subst this
          exact hap _ hr hm'
      obtain ⟨h1', e1, W1⟩ := hd x ex h1 nd hnd1
        (fun m hr => hN m (footN_cons.mpr (Or.inl ⟨x, hi, hr⟩)))
        (fun m b hr hb => hI b (Or.inr ⟨m, footN_cons.mpr (Or.inl ⟨x, hi, hr⟩), hb⟩))
        (fun b hb => by
          rw [hhold] at hb; cases hb
          exact hI a (Or.inl (by simp)))
        hni
      obtain ⟨h2, e2, W⟩ := ih (P ++ [(a, i)]) k h1' hsplit' (by simpa using hk)
        (fun m hm => by
          rw [W1.keptN m (fun hr => hap m hr hm)]
          exact hN m (footN_cons.mpr (Or.inr hm)))
        (by
          intro b hb
          rw [W1.keptI b (by
            rintro (h3 | ⟨m, hr, hbm⟩)
            · rw [hhold] at h3; cases h3; exact ha_rest hb
            · exact hapI m b hr hbm hb)]
          apply hI
          rcases hb with hb | ⟨m, hm, hbm⟩
          · exact Or.inl (by simp at hb ⊢; exact Or.inr hb)
          · exact Or.inr ⟨m, footN_cons.mpr (Or.inr hm), hbm⟩)
        (W1.nextItem.trans hni)
      refine ⟨h2, ?_, ?_⟩
      · show freeLoop _ (k + 1) h1 (some a) = _
        simp only [freeLoop, hcell1, itemFreeWith, hi, e1]
        exact e2
      · have hfN : ∀ m, FootN f ((a, i) :: S) m ↔ Reach f x m ∨ FootN f S m := by
          intro m
          rw [footN_cons]
          constructor
          · rintro (⟨y, hy, hr⟩ | h)
            · rw [hi] at hy; cases hy; exact Or.inl hr
            · exact Or.inr h
          · rintro (hr | h)
            · exact Or.inl ⟨x, hi, hr⟩
            · exact Or.inr h
        have hfI : ∀ b, FootI f ns ((a, i) :: S) b ↔
            (nd.holder = some b ∨ ∃ m, Reach f x m ∧ b ∈ (ns m).map Prod.fst) ∨ FootI f ns S b := by
          intro b
          unfold FootI
          simp only [List.map_cons, List.mem_cons, hfN]
          rw [hhold]
          constructor
          · rintro ((rfl | h) | ⟨m, hr | hm, hb⟩)
            · exact Or.inl (Or.inl rfl)
            · exact Or.inr (Or.inl h)
            · exact Or.inl (Or.inr ⟨m, hr, hb⟩)
            · exact Or.inr (Or.inr ⟨m, hm, hb⟩)
          · rintro ((h | ⟨m, hr, hb⟩) | (h | ⟨m, hm, hb⟩))
            · cases h; exact Or.inl (Or.inl rfl)
            · exact Or.inr ⟨m, Or.inl hr, hb⟩
            · exact Or.inl (Or.inr h)
            · exact Or.inr ⟨m, Or.inr hm, hb⟩
        constructor
        · intro m hm
          by_cases hS : FootN f S m
          · exact W.goneN m hS
          · rw [W.keptN m hS]
            rcases (hfN m).mp hm with h | h
            · exact W1.goneN m h
            · exact absurd h hS
        · intro m hm
          rw [hfN, not_or] at hm
          rw [W.keptN m hm.2, W1.keptN m hm.1]
        · intro b hb
          by_cases hS : FootI f ns S b
          · exact W.goneI b hS
          · rw [W.keptI b hS]
            rcases (hfI b).mp hb with h | h
            · exact W1.goneI b h
            · exact absurd h hS
        · intro b hb
          rw [hfI, not_or] at hb
          rw [W.keptI b hb.2, W1.keptI b hb.1]
        · exact W.nextItem.trans W1.nextItem
        · exact W.nextNode.trans W1.nextNode

theorem nodeFreeDepth_frees (R : Rep h f ns) (T : Tame f) :
    ∀ d c, f.live c = true → Depth f d c → FreesBelow h f ns d c := by
  intro d
  induction d with
  | zero => intro c _ hd; exact hd.elim
  | succ d ih =>
    intro c hc hd h1 nd hnd hN hI hH hni
    obtain ⟨hdr, hn⟩ := R.nodes c hc
    rw [hnd] at hn
    cases hn
    have hfootN : ∀ m, FootN f (ns c) m ↔ (Reach f c m ∧ m ≠ c) := by
      intro m
      constructor
      · rintro ⟨a, i, hm, x, hx, hr⟩
        obtain ⟨hp, hk⟩ := R.entry hc hm
        rw [hx] at hk
        have e : Edge f c x := ⟨hc, hk⟩
        refine ⟨Reach.head e hr, ?_⟩
        rintro rfl
        exact T.no_cycle e hr
      · rintro ⟨hr, hne⟩
        rcases hr.cases_head with rfl | ⟨b, e, r⟩
        · exact absurd rfl hne
        · obtain ⟨a, ha⟩ := R.edge_entry e
          exact ⟨a, _, ha, b, rfl, r⟩
    have hfootI : ∀ a, FootI f ns (ns c) a ↔ ∃ m, Reach f c m ∧ a ∈ (ns m).map Prod.fst := by
      intro a
      constructor
      · rintro (h | ⟨m, hm, ha⟩)
        · exact ⟨c, .refl, h⟩
        · exact ⟨m, ((hfootN m).mp hm).1, ha⟩
      · rintro ⟨m, hr, ha⟩
        by_cases e : m = c
        · subst e; exact Or.inl ha
        · exact Or.inr ⟨m, (hfootN m).mpr ⟨hr, e⟩, ha⟩
    obtain ⟨h2, e2, W⟩ := freeLoop_frees R T hc (d := d) (fun x ex => ih x (T.closed _ _ ex) (hd x ex))
      (ns c) [] h1.nextItem h1 rfl (by rw [hni]; exact R.length_le hc)
      (fun m hm => hN m ((hfootN m).mp hm).1)
      (fun a ha => by
        obtain ⟨m, hr, hm⟩ := (hfootI a).mp ha
        exact hI m a hr hm) hni
    have hnc : h1.nodes c = some ⟨f.name c, headAddr (ns c) none, lastAddr (ns c) none, hdr⟩ := by
      rw [hN c .refl]; exact hnd
    have hc2 : h2.nodes c = some ⟨f.name c, headAddr (ns c) none, lastAddr (ns c) none, hdr⟩ := by
      rw [W.keptN c (fun hf => ((hfootN c).mp hf).2 rfl)]; exact hnc
    -- the holder is not below
    have hhold : ∀ a, hdr = some a → ¬ FootI f ns (ns c) a ∧ ∃ cell, h2.items a = some cell := by
      intro a ha
      subst ha
      obtain ⟨cell, k1, k2, _⟩ := R.holder c _ a hc hnd rfl
      have hno : ¬ FootI f ns (ns c) a := by
        rw [hfootI]
        rintro ⟨m, hr, hm⟩
        have hml := T.reach_live hc hr
        have he := R.entry_of_cell hml hm k1
        have hk := (R.entry hml he).2
        rw [k2] at hk
        exact T.no_cycle ⟨hml, hk⟩ hr
      refine ⟨hno, cell, ?_⟩
      rw [W.keptI a hno, hH a rfl]; exact k1
    cases hdr with
    | none =>
      refine ⟨{ h2 with nodes := fun m => if m = c then none else h2.nodes m }, ?_, ?_⟩
      · simp only [nodeFreeDepth, hnc, e2, freeHolder, freeNodeRec, hc2]
      · constructor
        · intro m hm
          by_cases e : m = c
          · simp [e]
          · simp only [e, if_false]; exact W.goneN m ((hfootN m).mpr ⟨hm, e⟩)
        · intro m hm
          have e : m ≠ c := by rintro rfl; exact hm .refl
          simp only [e, if_false]
          exact W.keptN m (fun hf => hm ((hfootN m).mp hf).1)
        · rintro a (h | h)
          · cases h
          · exact W.goneI a ((hfootI a).mpr h)
        · intro a ha
          rw [not_or] at ha
          exact W.keptI a (fun hf => ha.2 ((hfootI a).mp hf))
        · exact W.nextItem
        · exact W.nextNode
    | some b =>
      obtain ⟨hno, cell, hcell⟩ := hhold b rfl
      refine ⟨{ h2 with nodes := fun m => if m = c then none else h2.nodes m,
                        items := fun a => if a = b then none else h2.items a }, ?_, ?_⟩
      · simp only [nodeFreeDepth, hnc, e2, freeHolder]
        rw [freeItem_of hcell]
        simp only [freeNodeRec, hc2]
      · constructor
        · intro m hm
          by_cases e : m = c
          · simp [e]
          · simp only [e, if_false]; exact W.goneN m ((hfootN m).mpr ⟨hm, e⟩)
        · intro m hm
          have e : m ≠ c := by rintro rfl; exact hm .refl
          simp only [e, if_false]
          exact W.keptN m (fun hf => hm ((hfootN m).mp hf).1)
        · rintro a (h | h)
          · cases h; simp
          · by_cases e : a = b
            · simp [e]
            · simp only [e, if_false]; exact W.goneI a ((hfootI a).mpr h)
        · intro a ha
          rw [not_or] at ha
          have e : a ≠ b := by rintro rfl; exact ha.1 rfl
          simp only [e, if_false]
          exact W.keptI a (fun hf => ha.2 ((hfootI a).mp hf))
        · exact W.nextItem
        · exact W.nextNode

/-- Freeing a node that is nobody's child. -/
theorem Rep.nodeFree (R : Rep h f ns) (T : Tame f) {n : Nat} (hn : f.live n = true)
    (hfree : ∀ p, ¬ Edge f p n) :
    ∃ h', h.nodeFree n = some h' ∧ Rep h' (f.kill n) ns ∧ Tame (f.kill n) := by
  obtain ⟨hd, hnode⟩ := R.nodes n hn
  obtain ⟨h2, e2, W⟩ := nodeFreeDepth_frees R T f.next n hn (depth_next T hn) h _ hnode
    (fun _ _ => rfl) (fun _ _ _ _ => rfl) (fun _ _ => rfl) rfl
  refine ⟨h2, by rw [Heap.nodeFree, R.next]; exact e2, ?_, tame_kill T R.single hn hfree⟩
  have hl : ∀ {m}, (f.kill n).live m = true → f.live m = true ∧ ¬ Reach f n m :=
    fun h => (live_kill T hn).mp h
  -- items of the nodes that stay are not freed
  have hstay : ∀ m a, f.live m = true → ¬ Reach f n m → a ∈ (ns m).map Prod.fst → h2.items a = h.items a := by
    intro m a hm hr ha
    apply W.keptI
    rintro (h1 | ⟨m', hr', ha'⟩)
    · dsimp only at h1
      subst h1
      obtain ⟨cell, k1, k2, _⟩ := R.holder n _ a hn hnode rfl
      have he := R.entry_of_cell hm ha k1
      have hk := (R.entry hm he).2
      rw [k2] at hk
      exact hfree m ⟨hm, hk⟩
    · have := R.unique hm (T.reach_live hn hr') ha ha'
      subst this
      exact hr hr'
  constructor
  · rw [W.nextNode]; exact R.next
  · intro m hm
    obtain ⟨h1, h3⟩ := hl hm
    rw [W.keptN m h3]; exact R.nodes m h1
  · intro m hm
    by_cases hr : Reach f n m
    · exact W.goneN m hr
    · rw [W.keptN m hr]
      apply R.dead
      cases e : f.live m with
      | false => rfl
      | true => rw [(live_kill T hn).mpr ⟨e, hr⟩] at hm; cases hm
  · intro m hm
    obtain ⟨h1, h3⟩ := hl hm
    exact seg_frame (fun a ha => hstay m a h1 h3 ha) (R.seg m h1)
  · intro m hm; exact R.nodup m (hl hm).1
  · intro m hm; exact R.info m (hl hm).1
  · intro m a c hm ha
    obtain ⟨h1, h3⟩ := hl hm
    obtain ⟨nd, k1, k2⟩ := R.child m a c h1 ha
    refine ⟨nd, ?_, k2⟩
    rw [W.keptN c]
    · exact k1
    · intro hr
      cases hr with
      | refl => exact hfree m (R.entry_edge h1 ha)
      | tail r e =>
        have := R.single _ _ _ (R.entry_edge h1 ha) e
        subst this
        exact h3 r
  · intro c nd a hc hnd ha
    obtain ⟨h1, h3⟩ := hl hc
    rw [W.keptN c h3] at hnd
    obtain ⟨cell, k1, k2, k3⟩ := R.holder c nd a h1 hnd ha
    have hk : h2.items a = h.items a := by
      apply W.keptI
      rintro (h4 | ⟨m', hr', ha'⟩)
      · dsimp only at h4
        subst h4
        obtain ⟨cell', j1, j2, _⟩ := R.holder n _ a hn hnode rfl
        rw [k1] at j1; cases j1
        rw [k2] at j2; cases j2
        exact h3 .refl
      · have hml := T.reach_live hn hr'
        have he := R.entry_of_cell hml ha' k1
        have hkk := (R.entry hml he).2
        rw [k2] at hkk
        exact h3 (hr'.tail ⟨hml, hkk⟩)
    refine ⟨cell, by rw [hk]; exact k1, k2, ?_⟩
    rcases k3 with ⟨m, hm, ham⟩ | k3
    · refine Or.inl ⟨m, (live_kill T hn).mpr ⟨hm, ?_⟩, ham⟩
      intro hr
      have he := R.entry_of_cell hm ham k1
      have hkk := (R.entry hm he).2
      rw [k2] at hkk
      exact h3 (hr.tail ⟨hm, hkk⟩)
    · exact Or.inr k3
  · intro a ha
    rw [W.nextItem] at ha
    have hf := R.fresh a ha
    by_cases hx : (hd = some a ∨ ∃ m, Reach f n m ∧ a ∈ (ns m).map Prod.fst)
    · exact W.goneI a hx
    · rw [W.keptI a hx]; exact hf

/-- Freeing an item that holds text and is in no list. -/
theorem Rep.freeText (R : Rep h f ns) {a : Nat} {cell : Cell Info} {k : TextKind} {s : List Char}
    (hc : h.items a = some cell) (ht : cell.data.data = .text k s)
    (hout : ∀ n, f.live n = true → a ∉ (ns n).map Prod.fst) :
    ∃ h', h.itemFree a = some h' ∧ Rep h' f ns := by
  refine ⟨{ h with items := fun b => if b = a then none else h.items b }, ?_, ?_⟩
  · simp only [itemFree, itemFreeWith, hc, ht]
    exact freeItem_of hc
  · constructor
    · exact R.next
    · exact R.nodes
    · exact R.dead
    · intro n hn
      apply seg_frame _ (R.seg n hn)
      intro b hb
      have : b ≠ a := fun e => hout n hn (e ▸ hb)
      simp [this]
    · exact R.nodup
    · exact R.info
    · exact R.child
    · intro c nd b hcl hnd hb
      obtain ⟨cell', k1, k2, k3⟩ := R.holder c nd b hcl hnd hb
      have : b ≠ a := by
        rintro rfl
        rw [hc] at k1; cases k1
        rw [ht] at k2; cases k2
      exact ⟨cell', by simp [this]; exact k1, k2, k3⟩
    · intro b hb
      by_cases e : b = a
      · simp [e]
      · simp [e]; exact R.fresh b hb

end Axl.Heap
