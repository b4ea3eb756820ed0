/-
Proofs about `Verif.Model.Iterate`: the loop over the pending nodes follows `Runs`.
-/
import Verif.Proofs.Iterate
import Verif.Proofs.TreeMove

namespace Axl.Heap
open Spec.Tree Spec.Tree.Forest Spec.Iterate AxlList

variable {h : Heap} {f g : Forest} {act : Log → Act}

/-- The order in which the pending list is filled. -/
def inOrder (mode : IterMode) (ks xs : List Nat) : List Nat :=
  match mode with
  | .deep => ks ++ xs
  | .wide => xs ++ ks

theorem pushLoop_spec {ns} (R : Rep h g ns) {n : Nat} (hn : g.live n = true) (mode : IterMode) :
    ∀ (post pre xs : List Nat) (k : Nat) (l : AxlList Nat), nodesOf (g.kids n) = pre ++ post → post.length ≤ k →
    Holds l (inOrder mode pre xs) →
    ∃ l', h.pushLoop mode k l post.head? pre.length = some l' ∧
      Holds l' (inOrder mode (pre ++ post) xs) := by
  intro post
  induction post with
  | nil =>
    intro pre xs k l _ _ H
    exact ⟨l, by cases k <;> rfl, by simpa using H⟩
  | cons c post ih =>
    intro pre xs k l hk hlen H
    cases k with
    | zero => simp at hlen
    | succ k =>
      have hnext := R.getNext hn hk
      obtain ⟨l1, e1, H1⟩ : ∃ l1, pushChild mode l c (pre.length : Int) = some l1 ∧
          Holds l1 (inOrder mode (pre ++ [c]) xs) := by
        cases mode with
        | deep =>
          obtain ⟨l1, e1, H1⟩ := Holds.addAt (xs := pre) (ys := xs) H c
          exact ⟨l1, e1, by simpa [inOrder] using H1⟩
        | wide =>
          obtain ⟨l1, e1, H1⟩ := Holds.add H c
          exact ⟨l1, e1, by simpa [inOrder] using H1⟩
      obtain ⟨l2, e2, H2⟩ := ih (pre ++ [c]) xs k l1 (by simpa using hk) (by simpa using hlen) H1
      refine ⟨l2, ?_, ?_⟩
      · simp only [List.head?_cons, pushLoop, e1, hnext, Option.bind_eq_bind, Option.bind_some]
        simpa using e2
      · simpa using H2

theorem pushChilds_spec {ns} (R : Rep h g ns) (T : Tame g) {n : Nat} (hn : g.live n = true) (mode : IterMode)
    {l : AxlList Nat} {xs : List Nat} (H : Holds l xs) :
    ∃ l', h.pushChilds mode false n l = some l' ∧
      Holds l' (inOrder mode (nodesOf (g.kids n)) xs) := by
  simp only [pushChilds, R.haveChilds hn, Option.bind_eq_bind, Option.bind_some]
  cases hk : nodesOf (g.kids n) with
  | nil => exact ⟨l, rfl, by cases mode <;> simpa [inOrder] using H⟩
  | cons c t =>
    have hlen := R.length_nodes T hn
    obtain ⟨l', e, H'⟩ := pushLoop_spec R hn mode (nodesOf (g.kids n)) [] xs h.nextNode l rfl hlen
      (by cases mode <;> simpa [inOrder] using H)
    simp only [List.isEmpty_cons, Bool.not_false, R.getFirstChild hn, Option.bind_some]
    refine ⟨l', by simpa using e, ?_⟩
    rw [hk] at H'
    simpa using H'

/-- What is known of the pending nodes: `f` is the tree at the beginning, `g` the present one. -/
structure Pend (f g : Forest) (ps : Log) : Prop where
  place : ∀ x po, (x, po) ∈ ps → ∃ q, po = some q ∧ Edge f q x ∧ Edge g q x
  same : ∀ x po, (x, po) ∈ ps → ∀ m, Reach f x m → f.live m = true ∧ g.live m = true ∧ g.kids m = f.kids m
  apart : (ps.map (·.1)).Pairwise fun a b => ¬ Reach f a b ∧ ¬ Reach f b a

theorem Pend.tail {x : Nat × Option Nat} {ps : Log} (P : Pend f g (x :: ps)) : Pend f g ps :=
  ⟨fun y po hy => P.place y po (by simp [hy]), fun y po hy => P.same y po (by simp [hy]), by
    have := P.apart
    simp only [List.map_cons, List.pairwise_cons] at this
    exact this.2⟩

theorem Pend.ne {x : Nat × Option Nat} {ps : Log} (P : Pend f g (x :: ps)) {y : Nat} {po : Option Nat}
    (hy : (y, po) ∈ ps) : ¬ Reach f x.1 y ∧ ¬ Reach f y x.1 := by
  have := P.apart
  simp only [List.map_cons, List.pairwise_cons] at this
  exact this.1 y (List.mem_map.mpr ⟨_, hy, rfl⟩)

theorem pairwise_symm_append {α : Type} {R : α → α → Prop} (hR : ∀ a b, R a b → R b a) {l r : List α} :
    (l ++ r).Pairwise R ↔ (r ++ l).Pairwise R := by
  simp only [List.pairwise_append]
  constructor
  · rintro ⟨h1, h2, h3⟩; exact ⟨h2, h1, fun a ha b hb => hR _ _ (h3 b hb a ha)⟩
  · rintro ⟨h1, h2, h3⟩; exact ⟨h2, h1, fun a ha b hb => hR _ _ (h3 b hb a ha)⟩

theorem Pend.push {n : Nat} {po : Option Nat} {ps : Log} (P : Pend f g ((n, po) :: ps)) (T : Tame f) (S : Single f)
    (hk : (nodesOf (f.kids n)).Nodup) (mode : IterMode) : Pend f g (Spec.Iterate.push mode (kidsOf f n) ps) := by
  have hn := P.same n po (by simp) n .refl
  have hmem : ∀ x, x ∈ Spec.Iterate.push mode (kidsOf f n) ps → x ∈ kidsOf f n ∨ x ∈ ps := by
    intro x hx
    cases mode <;> simp [Spec.Iterate.push] at hx <;> grind
  have hkid : ∀ x po, (x, po) ∈ kidsOf f n → po = some n ∧ Edge f n x := by
    intro x po hx
    obtain ⟨c, hc, e⟩ := List.mem_map.mp hx
    cases e
    exact ⟨rfl, hn.1, mem_nodesOf.mp hc⟩
  refine ⟨?_, ?_, ?_⟩
  · intro x qo hx
    rcases hmem _ hx with h1 | h1
    · obtain ⟨rfl, e⟩ := hkid x qo h1
      exact ⟨n, rfl, e, hn.2.1, by rw [hn.2.2]; exact e.2⟩
    · exact P.place x qo (by simp [h1])
  · intro x qo hx m hm
    rcases hmem _ hx with h1 | h1
    · obtain ⟨rfl, e⟩ := hkid x qo h1
      exact P.same n po (by simp) m (.head e hm)
    · exact P.same x qo (by simp [h1]) m hm
  · have hps := P.tail.apart
    have hks : ((kidsOf f n).map (·.1)).Pairwise fun a b => ¬ Reach f a b ∧ ¬ Reach f b a := by
      have e : (kidsOf f n).map (·.1) = nodesOf (f.kids n) := by simp [kidsOf, childs, Function.comp_def]
      rw [e]
      refine List.Pairwise.imp_of_mem ?_ hk
      intro a b ha hb hab
      have ea : Edge f n a := ⟨hn.1, mem_nodesOf.mp ha⟩
      have eb : Edge f n b := ⟨hn.1, mem_nodesOf.mp hb⟩
      exact ⟨fun r => siblings_apart T S ea eb hab r .refl, fun r => siblings_apart T S eb ea (Ne.symm hab) r .refl⟩
    have hcross : ∀ a ∈ (kidsOf f n).map (·.1), ∀ b ∈ ps.map (·.1), ¬ Reach f a b ∧ ¬ Reach f b a := by
      intro a ha b hb
      obtain ⟨⟨a, ao⟩, ha', rfl⟩ := List.mem_map.mp ha
      obtain ⟨⟨b, bo⟩, hb', rfl⟩ := List.mem_map.mp hb
      obtain ⟨_, e⟩ := hkid a ao ha'
      have hne := P.ne hb'
      refine ⟨fun r => hne.1 (.head e r), fun r => ?_⟩
      rcases reach_comparable S r (Reach.tail .refl e) with h1 | h1
      · exact hne.2 h1
      · exact hne.1 h1
    have hall : ((kidsOf f n ++ ps).map (·.1)).Pairwise fun a b => ¬ Reach f a b ∧ ¬ Reach f b a := by
      rw [List.map_append, List.pairwise_append]
      exact ⟨hks, hps, hcross⟩
    cases mode with
    | deep => exact hall
    | wide =>
      simp only [Spec.Iterate.push, List.map_append]
      rw [pairwise_symm_append (fun a b h => ⟨h.2, h.1⟩), ← List.map_append]
      exact hall

/-- The other pending nodes are not affected by the removal of a node. -/
theorem Pend.removed {n : Nat} {po : Option Nat} {ps : Log} (P : Pend f g ((n, po) :: ps)) (S : Single f) (T : Tame g) :
    Pend f (g.step (.removeNode n true)) ps := by
  -- the tree without the node, before it is freed
  have hstep : g.step (.removeNode n true) = ({ g with kids := fun p => (g.kids p).filter (· != .node n) } : Forest).kill n := rfl
  have he : ∀ a c, Edge ({ g with kids := fun p => (g.kids p).filter (· != .node n) } : Forest) a c → Edge g a c := by
    intro a c e
    exact ⟨e.1, (List.mem_filter.mp e.2).1⟩
  have T' : Tame ({ g with kids := fun p => (g.kids p).filter (· != .node n) } : Forest) :=
    tame_fewer T rfl (fun _ h => h) he (fun a c e => T.closed a c (he a c e))
  have hn := P.same n po (by simp)
  have hreach : ∀ m, Reach ({ g with kids := fun p => (g.kids p).filter (· != .node n) } : Forest) n m → Reach f n m := by
    intro m r
    induction r with
    | refl => exact .refl
    | tail r e ih =>
      have e := he _ _ e
      obtain ⟨h1, h2, h3⟩ := hn _ ih
      exact ih.tail ⟨h1, h3 ▸ e.2⟩
  have hlive : ∀ m, g.live m = true → ¬ Reach f n m → (g.step (.removeNode n true)).live m = true := by
    intro m hm hr
    rw [hstep]
    exact (live_kill T' (hn n .refl).2.1).mpr ⟨hm, fun r => hr (hreach m r)⟩
  have hkids : ∀ m, (g.step (.removeNode n true)).kids m = (g.kids m).filter (· != .node n) := fun _ => rfl
  refine ⟨?_, ?_, P.tail.apart⟩
  · intro x qo hx
    have hne := P.ne hx
    obtain ⟨q, rfl, ef, eg⟩ := P.place x qo (by simp [hx])
    refine ⟨q, rfl, ef, hlive q eg.1 (fun r => hne.1 (r.tail ef)), ?_⟩
    rw [hkids]
    refine List.mem_filter.mpr ⟨eg.2, ?_⟩
    simp only [bne_iff_ne, ne_eq, Child.node.injEq]
    rintro rfl
    exact hne.1 .refl
  · intro x qo hx m hm
    have hne := P.ne hx
    obtain ⟨h1, h2, h3⟩ := P.same x qo (by simp [hx]) m hm
    refine ⟨h1, hlive m h2 ?_, ?_⟩
    · intro r
      rcases reach_comparable S r hm with h4 | h4
      · exact hne.1 h4
      · exact hne.2 h4
    · rw [hkids, ← h3]
      apply List.filter_eq_self.mpr
      intro c hc
      simp only [bne_iff_ne, ne_eq]
      rintro rfl
      exact hne.2 (hm.tail ⟨h1, h3 ▸ hc⟩)

/-- How many nodes are still to be visited. -/
def mass (f : Forest) (ps : Log) : Nat := ((ps.map (·.1)).map f.size).sum

theorem mass_push (mode : IterMode) (ks ps : Log) : mass f (Spec.Iterate.push mode ks ps) = mass f ks + mass f ps := by
  cases mode <;> simp [mass, Spec.Iterate.push] <;> omega

/-- The removals done along the visits, as calls. -/
def removals (act : Log → Act) (log : Log) : List Op := (removed act log).map fun n => .removeNode n true

theorem run_append : ∀ (a b : List Op) (h : Heap), h.run (a ++ b) = (h.run a).bind fun h => h.run b
  | [], _, _ => rfl
  | op :: a, b, h => by
    simp only [List.cons_append, Heap.run, Option.bind_assoc]
    congr 1
    funext h'
    exact run_append a b h'

theorem forest_run_append : ∀ (a b : List Op) (f : Forest), f.run (a ++ b) = (f.run a).run b
  | [], _, _ => rfl
  | op :: a, b, f => by simp only [List.cons_append, Forest.run]; exact forest_run_append a b _

theorem iterateLoop_spec {h0 : Heap} (T : Tame f) (S : Single f)
    (hk : ∀ n, f.live n = true → (nodesOf (f.kids n)).Nodup) (mode : IterMode) {ps log : Log} {r : Log × Bool}
    (hr : Runs f act mode ps log r) :
    ∀ (k : Nat) (h : Heap) (g : Forest) (l : AxlList Nat), Inv h g → Holds l (ps.map (·.1)) → Pend f g ps →
    mass f ps ≤ k → h0.run (removals act log) = some h → f.run (removals act log) = g →
    ∃ h', iterateLoop (func act) mode k log h l = some (r.1, h', r.2) ∧
      h0.run (removals act r.1) = some h' ∧ Inv h' (f.run (removals act r.1)) := by
  induction hr with
  | nil =>
    intro k h g l I H P hm he hg
    have hlen := H.observes.length
    obtain ⟨m, hfree⟩ := H.free
    refine ⟨h, ?_, he, hg ▸ I⟩
    rw [iterateLoop.eq_def]
    dsimp only
    simp only [List.map_nil, List.length_nil] at hlen
    rw [if_neg (by omega), hfree]
    rfl
  | stop ha =>
    rename_i x ps log
    intro k h g l I H P hm he hg
    obtain ⟨n, po⟩ := x
    obtain ⟨⟨ns, R⟩, Tg⟩ := I
    obtain ⟨q, rfl, ef, eg⟩ := P.place n po (by simp)
    have hpar := (R.shows eg.1).parents n eg.2
    obtain ⟨l1, e1, H1⟩ := H.removeFirst
    obtain ⟨m, hfree⟩ := H1.free
    have hfirst := H.observes.first
    have hlen := H.observes.length
    have hsz : 1 ≤ mass f ((n, some q) :: ps) := by
      have := size_eq T (P.same n (some q) (by simp) n .refl).1
      simp only [mass, List.map_cons, List.sum_cons]; omega
    obtain ⟨k, rfl⟩ : ∃ k', k = k' + 1 := ⟨k - 1, by omega⟩
    refine ⟨h, ?_, ?_, ?_⟩
    · rw [iterateLoop.eq_def]
      dsimp only
      simp only [List.map_cons, List.length_cons, List.head?_cons] at hlen hfirst
      rw [if_pos (by omega)]
      simp only [hfirst, e1, hpar, func, ha, hfree, Option.bind_eq_bind, Option.bind_some]
    · simpa [removals, removed_snoc, ha] using he
    · have : removals act (log ++ [(n, some q)]) = removals act log := by simp [removals, removed_snoc, ha]
      rw [this, hg]
      exact ⟨⟨ns, R⟩, Tg⟩
  | remove ha _ ih =>
    rename_i x ps log r _
    intro k h g l I H P hm he hg
    obtain ⟨n, po⟩ := x
    have I0 := I
    obtain ⟨⟨ns, R⟩, Tg⟩ := I
    obtain ⟨q, rfl, ef, eg⟩ := P.place n po (by simp)
    have hpar := (R.shows eg.1).parents n eg.2
    obtain ⟨l1, e1, H1⟩ := H.removeFirst
    have hfirst := H.observes.first
    have hlen := H.observes.length
    have hsz := size_eq T (P.same n (some q) (by simp) n .refl).1
    have hm' : mass f ((n, some q) :: ps) = f.size n + mass f ps := by simp [mass]
    obtain ⟨k, rfl⟩ : ∃ k', k = k' + 1 := ⟨k - 1, by omega⟩
    obtain ⟨h1, e2, I1⟩ := inv_removeNode I0 (P.same n (some q) (by simp) n .refl).2.1 ((attached_iff Tg).mpr ⟨q, eg⟩) true
    have hrem : removals act (log ++ [(n, some q)]) = removals act log ++ [.removeNode n true] := by
      simp [removals, removed_snoc, ha]
    obtain ⟨h', g1, g2, g3⟩ := ih k h1 _ l1 I1 H1 (P.removed S Tg) (by omega)
      (by rw [hrem, run_append, he]; simp [Heap.run, Heap.exec, e2])
      (by rw [hrem, forest_run_append, hg]; rfl)
    refine ⟨h', ?_, g2, g3⟩
    rw [iterateLoop.eq_def]
    dsimp only
    simp only [List.map_cons, List.length_cons, List.head?_cons] at hlen hfirst
    rw [if_pos (by omega)]
    simp only [hfirst, e1, hpar, func, ha, e2, Option.bind_eq_bind, Option.bind_some, Option.map_some, pushChilds]
    exact g1
  | go ha _ ih =>
    rename_i x ps log r _
    intro k h g l I H P hm he hg
    obtain ⟨n, po⟩ := x
    have I0 := I
    obtain ⟨⟨ns, R⟩, Tg⟩ := I
    obtain ⟨q, rfl, ef, eg⟩ := P.place n po (by simp)
    have hpar := (R.shows eg.1).parents n eg.2
    obtain ⟨l1, e1, H1⟩ := H.removeFirst
    have hfirst := H.observes.first
    have hlen := H.observes.length
    obtain ⟨hnf, hng, hnk⟩ := P.same n (some q) (by simp) n .refl
    have hsz := size_eq T hnf
    have hm' : mass f ((n, some q) :: ps) = f.size n + mass f ps := by simp [mass]
    have hmk : mass f (kidsOf f n) = ((nodesOf (f.kids n)).map f.size).sum := by
      simp [mass, kidsOf, childs, Function.comp_def]
    obtain ⟨k, rfl⟩ : ∃ k', k = k' + 1 := ⟨k - 1, by omega⟩
    obtain ⟨l2, e2, H2⟩ := pushChilds_spec R Tg hng mode H1
    have hrem : removals act (log ++ [(n, some q)]) = removals act log := by
      simp [removals, removed_snoc, ha]
    have hH2 : Holds l2 ((Spec.Iterate.push mode (kidsOf f n) ps).map (·.1)) := by
      rw [hnk] at H2
      cases mode <;> simpa [inOrder, Spec.Iterate.push, kidsOf, childs, Function.comp_def] using H2
    obtain ⟨h', g1, g2, g3⟩ := ih k h g l2 I0 hH2 (P.push T S (hk n hnf) mode) (by rw [mass_push]; show mass f (kidsOf f n) + _ ≤ _; omega)
      (by rw [hrem, he]) (by rw [hrem, hg])
    refine ⟨h', ?_, g2, g3⟩
    rw [iterateLoop.eq_def]
    dsimp only
    simp only [List.map_cons, List.length_cons, List.head?_cons] at hlen hfirst
    rw [if_pos (by omega)]
    simp only [hfirst, e1, hpar, func, ha, e2, Option.bind_eq_bind, Option.bind_some]
    exact g1

/-- The visits described in the specification are those of the loop. -/
theorem runs_visits (T : Tame f) {root : Nat} (hl : f.live root = true) (mode : IterMode) :
    Runs f act mode [(root, none)] [] (visits f act root mode) := by
  cases mode with
  | wide => exact runs_wide T _ _ _ (by simpa using ⟨depth_next T hl, hl⟩)
  | deep =>
    have h1 := runs_deep (act := act) T f.next [root] none [] [] (deep f act f.next none root ([], true)).1
      (by simpa using ⟨depth_next T hl, hl⟩)
    simp only [List.foldl_cons, List.foldl_nil, List.map_cons, List.map_nil, List.append_nil] at h1
    show Runs f act .deep _ _ (deep f act f.next none root ([], true))
    rcases hd : deep f act f.next none root ([], true) with ⟨log, b⟩
    rw [hd] at h1
    cases b with
    | false => exact h1.1 rfl
    | true => exact h1.2 rfl _ .nil

/-- The whole iteration. -/
theorem iterate_spec (I : Inv h f) {root : Nat} (hl : f.live root = true) (mode : IterMode)
    (hroot : act [(root, none)] ≠ .remove) :
    ∃ h', iterate (func act) mode [] h root = some ((visits f act root mode).1, h', (visits f act root mode).2) ∧
      h.run (removals act (visits f act root mode).1) = some h' ∧
      Inv h' (f.run (removals act (visits f act root mode).1)) := by
  have I0 := I
  obtain ⟨⟨ns, R⟩, T⟩ := I
  have S : Single f := R.single
  have hk : ∀ n, f.live n = true → (nodesOf (f.kids n)).Nodup := fun n hn => R.nodup_kids hn
  have hr := runs_visits (act := act) T hl mode
  have hrem : act [(root, none)] ≠ .remove → removals act [(root, none)] = [] := by
    intro h1
    have := removed_snoc (act := act) [] (root, none)
    simp only [List.nil_append] at this
    simp [removals, this, h1, removed]
  generalize visits f act root mode = r at hr
  cases hr with
  | stop ha =>
    simp only [List.nil_append] at ha
    refine ⟨h, ?_, ?_, ?_⟩
    · simp [iterate, func, ha]
    · simp [hrem hroot, Heap.run]
    · simpa [hrem hroot, Forest.run] using I0
  | remove ha _ => exact (hroot (by simpa using ha)).elim
  | go ha hr =>
    simp only [List.nil_append] at ha hr
    obtain ⟨hd, hx⟩ := R.nodes root hl
    obtain ⟨l, e1, H⟩ := Holds.adds (AxlList.holds_new (α := Nat)) (nodesOf (f.kids root))
    have e2 : h.getChilds root = some l := by
      simp only [getChilds, hx, Option.bind_eq_bind, Option.bind_some]
      exact childsLoop_spec (ns root) h.nextItem none _ _ (R.length_le hl) (R.seg root hl)
        (by rw [R.nodesIn_eq hl]; exact e1)
    have hpush : Spec.Iterate.push mode (kidsOf f root) [] = kidsOf f root := by
      cases mode <;> simp [Spec.Iterate.push]
    rw [hpush] at hr
    have P : Pend f f (kidsOf f root) := by
      refine ⟨?_, ?_, ?_⟩
      · intro x po hx
        obtain ⟨c, hc, e⟩ := List.mem_map.mp hx
        cases e
        exact ⟨root, rfl, ⟨hl, mem_nodesOf.mp hc⟩, ⟨hl, mem_nodesOf.mp hc⟩⟩
      · intro x po hx m hm
        obtain ⟨c, hc, e⟩ := List.mem_map.mp hx
        cases e
        have := T.reach_live (T.closed root _ ⟨hl, mem_nodesOf.mp hc⟩) hm
        exact ⟨this, this, rfl⟩
      · have e : (kidsOf f root).map (·.1) = nodesOf (f.kids root) := by simp [kidsOf, childs, Function.comp_def]
        rw [e]
        refine List.Pairwise.imp_of_mem ?_ (hk root hl)
        intro a b ha hb hab
        have ea : Edge f root a := ⟨hl, mem_nodesOf.mp ha⟩
        have eb : Edge f root b := ⟨hl, mem_nodesOf.mp hb⟩
        exact ⟨fun r => siblings_apart T S ea eb hab r .refl, fun r => siblings_apart T S eb ea (Ne.symm hab) r .refl⟩
    have hmass : mass f (kidsOf f root) ≤ h.nextNode := by
      have h1 := size_le T S hk hl
      have h2 := size_eq T hl
      have hmk : mass f (kidsOf f root) = ((nodesOf (f.kids root)).map f.size).sum := by
        simp [mass, kidsOf, childs, Function.comp_def]
      rw [R.next]; omega
    obtain ⟨h', g1, g2, g3⟩ := iterateLoop_spec (h0 := h) T S hk mode hr h.nextNode h f l I0
      (by simpa [kidsOf, childs, Function.comp_def] using H) P hmass (by simp [hrem hroot, Heap.run])
      (by simp [hrem hroot, Forest.run])
    refine ⟨h', ?_, g2, g3⟩
    simp only [iterate, func, List.nil_append, ha, Option.bind_eq_bind, Option.bind_some, Bool.not_false, Bool.and_self, e2]
    exact g1

end Axl.Heap

/-! ### The order when nothing is removed -/

namespace Axl.Spec.Iterate
open Spec.Tree Spec.Tree.Forest
variable {f : Forest} {act : Log → Act}

/-- Stopping cuts the visits short, and nothing else. -/
theorem runs_prefix {mode : IterMode} {ps log : Log} {r : Log × Bool} (hr : Runs f act mode ps log r)
    (hn : ∀ l, act l ≠ .remove) {r' : Log × Bool} (hr' : Runs f (fun _ => .go) mode ps log r') :
    r.1 <+: r'.1 ∧ (r.2 = true → r.1 = r'.1) ∧ (r.2 = false → act r.1 = .stop) := by
  induction hr with
  | nil => cases hr'; simp
  | stop ha =>
    rename_i x ps log
    refine ⟨?_, by simp, fun _ => ha⟩
    have hpre : ∀ {ps log r}, Runs f (fun _ => .go) mode ps log r → log <+: r.1 := by
      intro ps log r h
      induction h with
      | nil => simp
      | stop h => cases h
      | remove h => cases h
      | go _ _ ih => exact (List.prefix_append _ _).trans ih
    cases hr' with
    | stop h => cases h
    | remove h => cases h
    | go _ h => exact hpre h
  | remove ha => exact (hn _ ha).elim
  | go ha _ ih =>
    cases hr' with
    | stop h => cases h
    | remove h => cases h
    | go _ h => exact ih h

theorem runs_grows {mode : IterMode} {ps log : Log} {r : Log × Bool} (hr : Runs f act mode ps log r) : log <+: r.1 := by
  induction hr with
  | nil => simp
  | stop h => exact List.prefix_append _ _
  | remove _ _ ih => exact (List.prefix_append _ _).trans ih
  | go _ _ ih => exact (List.prefix_append _ _).trans ih

/-- At every call but the one at which it stops, the function goes on. -/
theorem runs_goes {mode : IterMode} {ps log : Log} {r : Log × Bool} (hr : Runs f act mode ps log r)
    (hn : ∀ l, act l ≠ .remove) : ∀ l, l <+: r.1 → log.length < l.length → (l ≠ r.1 ∨ r.2 = true) → act l = .go := by
  induction hr with
  | nil =>
    intro l hl h1 _
    exact absurd hl.length_le (by simpa using h1)
  | stop ha =>
    intro l hl h1 h2
    have := hl.length_le
    simp only [List.length_append, List.length_singleton] at this
    have : l = _ := hl.eq_of_length (by simp; omega)
    simp_all
  | remove ha => exact (hn _ ha).elim
  | go ha hr ih =>
    rename_i x ps log r
    intro l hl h1 h2
    by_cases h3 : (log ++ [x]).length < l.length
    · exact ih l hl h3 h2
    · have h4 := runs_grows hr
      have h5 : l = log ++ [x] := by
        have : l <+: log ++ [x] := List.prefix_of_prefix_length_le hl h4 (by omega)
        exact this.eq_of_length (by have := this.length_le; simp at *; omega)
      rw [h5]; exact ha

/-- The pairs of a DEEP iteration of everything. -/
theorem deep_all : ∀ (d : Nat) (p : Option Nat) (n : Nat) (log : Log),
    ∃ l, deep f (fun _ => .go) d p n (log, true) = (log ++ l, true) ∧ l.map (·.1) = f.subtree d n ∧
      (∀ x ∈ l, x = (n, p) ∨ ∃ q, x.2 = some q ∧ x.1 ∈ childs f q) := by
  intro d
  induction d with
  | zero => intro p n log; exact ⟨[], by simp [deep], rfl, by simp⟩
  | succ d ih =>
    intro p n log
    have hf : ∀ (ks : List Nat) (log : Log), (∀ c ∈ ks, c ∈ childs f n) →
        ∃ l, ks.foldl (fun s c => deep f (fun _ => .go) d (some n) c s) (log, true) = (log ++ l, true) ∧
          l.map (·.1) = ks.flatMap (f.subtree d) ∧ ∀ x ∈ l, ∃ q, x.2 = some q ∧ x.1 ∈ childs f q := by
      intro ks
      induction ks with
      | nil => intro log _; exact ⟨[], by simp, rfl, by simp⟩
      | cons k ks ihk =>
        intro log hks
        obtain ⟨l1, e1, m1, q1⟩ := ih (some n) k log
        obtain ⟨l2, e2, m2, q2⟩ := ihk (log ++ l1) (fun c hc => hks c (by simp [hc]))
        refine ⟨l1 ++ l2, ?_, by simp [m1, m2], ?_⟩
        · simp only [List.foldl_cons, e1, e2, List.append_assoc]
        · intro x hx
          rcases List.mem_append.mp hx with h | h
          · rcases q1 x h with rfl | h
            · exact ⟨n, rfl, hks k (by simp)⟩
            · exact h
          · exact q2 x h
    obtain ⟨l, e, m, q⟩ := hf (childs f n) (log ++ [(n, p)]) (fun _ h => h)
    refine ⟨(n, p) :: l, ?_, ?_, ?_⟩
    · rw [deep]
      simp only [e, List.append_assoc, List.singleton_append]
    · simp [m, subtree, childs]
    · intro x hx
      rcases List.mem_cons.mp hx with rfl | h
      · exact Or.inl rfl
      · exact Or.inr (q x h)

theorem level_all : ∀ (ps log : Log), level f (fun _ => .go) log ps = (log ++ ps, true, ps.flatMap fun x => kidsOf f x.1) := by
  intro ps
  induction ps with
  | nil => intro log; simp [level]
  | cons x ps ih =>
    intro log
    obtain ⟨n, p⟩ := x
    rw [level]
    simp [ih, kidsOf]

theorem wide_all : ∀ (d : Nat) (ps log : Log),
    ∃ l, wide f (fun _ => .go) d log ps = (log ++ l, true) ∧
      l.map (·.1) = (List.range d).flatMap (fun i => generation f i (ps.map (·.1))) ∧
      (∀ x ∈ l, x ∈ ps ∨ ∃ q, x.2 = some q ∧ x.1 ∈ childs f q) := by
  intro d
  induction d with
  | zero => intro ps log; exact ⟨[], by simp [wide], rfl, by simp⟩
  | succ d ih =>
    intro ps log
    obtain ⟨l, e, m, q⟩ := ih (ps.flatMap fun x => kidsOf f x.1) (log ++ ps)
    refine ⟨ps ++ l, ?_, ?_, ?_⟩
    · rw [wide, level_all]
      simp only [e, List.append_assoc]
    · rw [List.range_succ_eq_map, List.flatMap_cons, List.flatMap_map, List.map_append, m]
      congr 1
      apply flatMap_congr'
      intro i _
      rw [generation]
      congr 1
      simp [List.map_flatMap, List.flatMap_map, kidsOf, Function.comp_def]
    · intro x hx
      rcases List.mem_append.mp hx with h | h
      · exact Or.inl h
      · rcases q x h with h | h
        · obtain ⟨y, _, hy⟩ := List.mem_flatMap.mp h
          obtain ⟨c, hc, rfl⟩ := List.mem_map.mp hy
          exact Or.inr ⟨y.1, rfl, hc⟩
        · exact Or.inr h

/-- The levels contain the nodes of the subtrees. -/
theorem generations_perm : ∀ (d : Nat) (ns : List Nat),
    ((List.range d).flatMap fun i => generation f i ns).Perm (ns.flatMap (f.subtree d)) := by
  intro d
  induction d with
  | zero => intro ns; simp [subtree]
  | succ d ih =>
    intro ns
    have h1 : ns.flatMap (f.subtree (d + 1)) = ns.flatMap fun n => [n] ++ (childs f n).flatMap (f.subtree d) := by
      apply flatMap_congr'; intro n _; simp [subtree, childs]
    have h2 : ∀ (ms : List Nat) (g : Nat → List Nat), (ms.flatMap fun n => [n] ++ g n).Perm (ms ++ ms.flatMap g) := by
      intro ms g
      induction ms with
      | nil => simp
      | cons n ms ihm =>
        simp only [List.flatMap_cons, List.cons_append, List.nil_append]
        refine List.Perm.cons n ?_
        refine ((List.Perm.refl (g n)).append ihm).trans ?_
        rw [← List.append_assoc, ← List.append_assoc]
        exact (List.perm_append_comm).append_right _
    rw [h1]
    refine List.Perm.trans ?_ (h2 ns _).symm
    rw [List.range_succ_eq_map, List.flatMap_cons, List.flatMap_map]
    refine List.Perm.append (List.Perm.refl _) ?_
    have := ih (ns.flatMap (childs f))
    simpa [Function.comp_def, generation, List.flatMap_assoc] using this

end Axl.Spec.Iterate
