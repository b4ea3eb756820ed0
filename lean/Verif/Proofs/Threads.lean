/-
Threads with nodes of their own do not interfere.
-/
import Verif.Spec.Threads
import Verif.Proofs.TreeMove
import Verif.Proofs.TreeCopy

namespace Axl.Spec.Tree.Forest
open Heap

/-- The nodes of `f` are in `F`, with other numbers. -/
structure In (ρ : Nat → Nat) (f F : Forest) : Prop where
  lt : ∀ k, k < f.next → ρ k < F.next
  inj : ∀ j k, j < f.next → k < f.next → ρ j = ρ k → j = k
  live : ∀ k, k < f.next → F.live (ρ k) = f.live k
  name : ∀ k, k < f.next → F.name (ρ k) = f.name k
  kids : ∀ k, k < f.next → f.live k = true → F.kids (ρ k) = (f.kids k).map (Child.as ρ)
  /-- the other nodes have none of them -/
  apart : ∀ m k, F.live m = true → (∀ j, j < f.next → ρ j ≠ m) → k < f.next → Child.node (ρ k) ∉ F.kids m

/-- The nodes that are not of `f` stay as they were. -/
structure Frame (ρ : Nat → Nat) (f F F' : Forest) : Prop where
  live : ∀ m, m < F.next → (∀ j, j < f.next → ρ j ≠ m) → F'.live m = F.live m
  name : ∀ m, m < F.next → (∀ j, j < f.next → ρ j ≠ m) → F'.name m = F.name m
  kids : ∀ m, m < F.next → F.live m = true → (∀ j, j < f.next → ρ j ≠ m) → F'.kids m = F.kids m

variable {ρ : Nat → Nat} {f F : Forest}

theorem node_as {c : Child} {n : Nat} : c.as ρ = .node n ↔ ∃ k, c = .node k ∧ n = ρ k := by
  cases c with
  | node k => simp only [Child.as, Child.node.injEq, exists_eq_left']; exact eq_comm
  | text k s => simp [Child.as]

theorem In.edge (R : In ρ f F) (T : Tame f) {k : Nat} (hk : k < f.next) {m : Nat} : Edge F (ρ k) m ↔ ∃ j, m = ρ j ∧ Edge f k j := by
  unfold Edge
  rw [R.live k hk]
  constructor
  · rintro ⟨h1, h2⟩
    rw [R.kids k hk h1, List.mem_map] at h2
    obtain ⟨c, hc, h3⟩ := h2
    obtain ⟨j, rfl, rfl⟩ := node_as.1 h3
    exact ⟨j, rfl, h1, hc⟩
  · rintro ⟨j, rfl, h1, h2⟩
    refine ⟨h1, ?_⟩
    rw [R.kids k hk h1, List.mem_map]
    exact ⟨_, h2, rfl⟩

theorem In.edge_to (R : In ρ f F) (T : Tame f) {j : Nat} (hj : j < f.next) {m : Nat} : Edge F m (ρ j) ↔ ∃ k, m = ρ k ∧ Edge f k j := by
  constructor
  · intro e
    by_cases h : ∃ k, k < f.next ∧ ρ k = m
    · obtain ⟨k, hk, rfl⟩ := h
      obtain ⟨i, h1, h2⟩ := (R.edge T hk).1 e
      have hi := T.bound _ (T.closed _ _ h2)
      exact ⟨k, rfl, (R.inj j i hj hi h1) ▸ h2⟩
    · exact absurd e.2 (R.apart m j e.1 (fun i hi h' => h ⟨i, hi, h'⟩) hj)
  · rintro ⟨k, rfl, e⟩
    exact (R.edge T (T.bound _ e.1)).2 ⟨j, rfl, e⟩

theorem In.reach (R : In ρ f F) (T : Tame f) {k : Nat} (hk : f.live k = true) {m : Nat} : Reach F (ρ k) m ↔ ∃ j, m = ρ j ∧ Reach f k j := by
  constructor
  · intro h
    induction h with
    | refl => exact ⟨k, rfl, .refl⟩
    | tail _ e ih =>
      obtain ⟨i, rfl, h2⟩ := ih
      obtain ⟨j, rfl, h3⟩ := (R.edge T (T.bound _ (T.reach_live hk h2))).1 e
      exact ⟨j, rfl, h2.tail h3⟩
  · rintro ⟨j, rfl, h⟩
    induction h with
    | refl => exact .refl
    | tail h1 e ih => exact ih.tail ((R.edge T (T.bound _ e.1)).2 ⟨_, rfl, e⟩)

theorem In.below (R : In ρ f F) (T : Tame f) (TF : Tame F) {k j : Nat} (hk : f.live k = true) (hj : j < f.next) : F.below (ρ k) (ρ j) = f.below k j := by
  rw [Bool.eq_iff_iff, below_iff TF (by rw [R.live k (T.bound _ hk)]; exact hk), below_iff T hk, R.reach T hk]
  constructor
  · rintro ⟨i, h1, h2⟩
    exact (R.inj j i hj (T.bound _ (T.reach_live hk h2)) h1) ▸ h2
  · exact fun h => ⟨j, rfl, h⟩

theorem In.attached (R : In ρ f F) (T : Tame f) (TF : Tame F) {k : Nat} (hk : k < f.next) : F.attached (ρ k) = f.attached k := by
  rw [Bool.eq_iff_iff, attached_iff TF, attached_iff T]
  constructor
  · rintro ⟨p, e⟩
    obtain ⟨j, -, h⟩ := (R.edge_to T hk).1 e
    exact ⟨j, h⟩
  · rintro ⟨p, e⟩
    exact ⟨ρ p, (R.edge_to T hk).2 ⟨p, rfl, e⟩⟩

theorem In.mayGo (R : In ρ f F) (T : Tame f) (TF : Tame F) {p : Nat} (hp : p < f.next) {v : Child} (h : f.mayGo p v = true) : F.mayGo (ρ p) (v.as ρ) = true := by
  cases v with
  | text => rfl
  | node n =>
    simp only [Forest.mayGo, Bool.and_eq_true] at h
    have hn := T.bound _ h.1.1
    simp only [Forest.mayGo, Child.as]
    rw [R.live n hn, R.attached T TF hn, R.below T TF h.1.1 hp, h.1.1, h.1.2, h.2]
    rfl

theorem In.mayGo_bound (T : Tame f) {p : Nat} {v : Child} (h : f.mayGo p v = true) : ∀ n, v = .node n → n < f.next := by
  rintro n rfl
  simp only [Forest.mayGo, Bool.and_eq_true] at h
  exact T.bound _ h.1.1

/-- Other children for one of the nodes. -/
theorem In.setKids (R : In ρ f F) {p : Nat} (hp : p < f.next) {l : List Child} :
    In ρ (f.setKids p l) (F.setKids (ρ p) (l.map (Child.as ρ))) ∧ Frame ρ f F (F.setKids (ρ p) (l.map (Child.as ρ))) := by
  refine ⟨⟨R.lt, R.inj, R.live, R.name, ?_, ?_⟩, ⟨fun _ _ _ => rfl, fun _ _ _ => rfl, ?_⟩⟩
  · intro k hk hl
    simp only [Forest.setKids]
    by_cases h : k = p
    · subst h; simp
    · rw [if_neg h, if_neg fun h' => h (R.inj k p hk hp h')]
      exact R.kids k hk hl
  · intro m k hm hout hk
    simp only [Forest.setKids]
    rw [if_neg fun h => hout p hp h.symm]
    exact R.apart m k hm hout hk
  · intro m _ _ hout
    simp only [Forest.setKids]
    rw [if_neg fun h => hout p hp h.symm]

theorem Frame.refl (ρ : Nat → Nat) (f F : Forest) : Frame ρ f F F := ⟨fun _ _ _ => rfl, fun _ _ _ => rfl, fun _ _ _ _ => rfl⟩

theorem Frame.trans {f' F' F'' : Forest} (h1 : Frame ρ f F F') (h2 : Frame ρ f' F' F'') (hn : f'.next = f.next) (hN : F'.next = F.next) : Frame ρ f F F'' where
  live := fun m hm ho => (h2.live m (hN ▸ hm) (hn ▸ ho)).trans (h1.live m hm ho)
  name := fun m hm ho => (h2.name m (hN ▸ hm) (hn ▸ ho)).trans (h1.name m hm ho)
  kids := fun m hm hl ho => (h2.kids m (hN ▸ hm) ((h1.live m hm ho).trans hl) (hn ▸ ho)).trans (h1.kids m hm hl ho)

/-- A node and what is below it are freed. -/
theorem In.kill (R : In ρ f F) (T : Tame f) (TF : Tame F) {n : Nat} (hn : f.live n = true) : In ρ (f.kill n) (F.kill (ρ n)) ∧ Frame ρ f F (F.kill (ρ n)) := by
  have hb := T.bound _ hn
  have hlive : F.live (ρ n) = true := by rw [R.live n hb]; exact hn
  refine ⟨⟨R.lt, R.inj, ?_, R.name, ?_, ?_⟩, ⟨?_, fun _ _ _ => rfl, fun _ _ _ _ => rfl⟩⟩
  · intro k hk
    simp only [Forest.kill]
    rw [R.live k hk, R.below T TF hn hk]
  · intro k hk hl
    simp only [Forest.kill, Bool.and_eq_true] at hl
    exact R.kids k hk hl.1
  · intro m k hm hout hk
    simp only [Forest.kill, Bool.and_eq_true] at hm
    exact R.apart m k hm.1 hout hk
  · intro m _ hout
    simp only [Forest.kill]
    have : F.below (ρ n) m = false := by
      rw [Bool.eq_false_iff]
      intro h
      obtain ⟨j, rfl, hr⟩ := (R.reach T hn).1 ((below_iff TF hlive).1 h)
      exact hout j (T.bound _ (T.reach_live hn hr)) rfl
    rw [this]
    simp

theorem In.killChild (R : In ρ f F) (T : Tame f) (TF : Tame F) {c : Option Child} (hc : ∀ n, c = some (.node n) → f.live n = true) :
    In ρ (f.killChild c) (F.killChild (c.map (Child.as ρ))) ∧ Frame ρ f F (F.killChild (c.map (Child.as ρ))) := by
  match c, hc with
  | none, _ => exact ⟨R, .refl ..⟩
  | some (.text k s), _ => exact ⟨R, .refl ..⟩
  | some (.node n), hc => exact R.kill T TF (hc n rfl)

/-- A change that is made to the children of every node and does nothing to those that do not have the node `n`. -/
theorem In.mapKids (R : In ρ f F) (T : Tame f) {n : Nat} (hn : n < f.next) {u U : List Child → List Child}
    (h1 : ∀ l : List Child, (∀ k, Child.node k ∈ l → k < f.next) → U (l.map (Child.as ρ)) = (u l).map (Child.as ρ))
    (h2 : ∀ l, Child.node (ρ n) ∉ l → U l = l) :
    In ρ { f with kids := fun p => u (f.kids p) } { F with kids := fun p => U (F.kids p) } ∧ Frame ρ f F { F with kids := fun p => U (F.kids p) } := by
  refine ⟨⟨R.lt, R.inj, R.live, R.name, ?_, ?_⟩, ⟨fun _ _ _ => rfl, fun _ _ _ => rfl, ?_⟩⟩
  · intro k hk hl
    simp only
    rw [R.kids k hk hl, h1 _ fun j hj => T.bound _ (T.closed _ _ ⟨hl, hj⟩)]
  · intro m k hm hout hk
    simp only
    rw [h2 _ (R.apart m n hm hout hn)]
    exact R.apart m k hm hout hk
  · intro m _ hl hout
    simp only
    rw [h2 _ (R.apart m n hl hout hn)]

/-- The names that a call gives to the nodes that it creates. -/
def extend (ρ : Nat → Nat) (n N : Nat) (k : Nat) : Nat := if k < n then ρ k else N + (k - n)

theorem map_extend {n N : Nat} {l : List Child} (h : ∀ k, Child.node k ∈ l → k < n) : l.map (Child.as (extend ρ n N)) = l.map (Child.as ρ) := by
  apply List.map_congr_left
  intro c hc
  cases c with
  | text => rfl
  | node k => simp only [Child.as, extend, if_pos (h k hc)]

theorem In.extend (R : In ρ f F) (T : Tame f) : In (extend ρ f.next F.next) f F := by
  have e : ∀ k, k < f.next → Forest.extend ρ f.next F.next k = ρ k := fun k hk => if_pos hk
  refine ⟨fun k hk => ?_, fun j k hj hk => ?_, fun k hk => ?_, fun k hk => ?_, fun k hk hl => ?_, fun m k hm ho hk => ?_⟩
  · rw [e k hk]; exact R.lt k hk
  · rw [e k hk, e j hj]; exact R.inj j k hj hk
  · rw [e k hk]; exact R.live k hk
  · rw [e k hk]; exact R.name k hk
  · rw [e k hk, map_extend fun j hj => T.bound _ (T.closed _ _ ⟨hl, hj⟩)]; exact R.kids k hk hl
  · rw [e k hk]; exact R.apart m k hm (fun j hj => by rw [← e j hj]; exact ho j hj) hk


/-! ## A node more -/

/-- The nodes of a forest and its children were created. -/
structure Made (F : Forest) : Prop where
  live : ∀ m, F.live m = true → m < F.next
  kids : ∀ m c, F.live m = true → Child.node c ∈ F.kids m → c < F.next

theorem Tame.made (T : Tame F) : Made F := ⟨T.bound, fun m c hm hc => T.bound _ (T.closed m c ⟨hm, hc⟩)⟩

/-- The nodes of `g` are in `G`, and those that will be created after them too. -/
structure Grows (ρ : Nat → Nat) (g G : Forest) : Prop where
  isIn : In ρ g G
  made : Made G
  flat : ∀ k, g.next ≤ k → ρ k = G.next + (k - g.next)

theorem Grows.add {g G : Forest} (S : Grows ρ g G) (name : List Char) : Grows ρ (g.add name) (G.add name) := by
  obtain ⟨R, M, fl⟩ := S
  have h0 : ρ g.next = G.next := by rw [fl _ (Nat.le_refl _)]; omega
  have hne : ∀ k, k < g.next → ρ k ≠ G.next := fun k hk h => by have := R.lt k hk; omega
  refine ⟨⟨?_, ?_, ?_, ?_, ?_, ?_⟩, ⟨?_, ?_⟩, ?_⟩
  · intro k hk
    simp only [Forest.add] at hk ⊢
    by_cases h : k = g.next
    · rw [h, h0]; omega
    · have := R.lt k (by omega); omega
  · intro j k hj hk e
    simp only [Forest.add] at hj hk
    by_cases h : k = g.next <;> by_cases h' : j = g.next
    · omega
    · rw [h, h0] at e; exact absurd e (hne j (by omega))
    · rw [h', h0] at e; exact absurd e.symm (hne k (by omega))
    · exact R.inj j k (by omega) (by omega) e
  · intro k hk
    simp only [Forest.add] at hk ⊢
    by_cases h : k = g.next
    · subst h; simp [h0]
    · rw [if_neg h, if_neg (hne k (by omega))]; exact R.live k (by omega)
  · intro k hk
    simp only [Forest.add] at hk ⊢
    by_cases h : k = g.next
    · subst h; simp [h0]
    · rw [if_neg h, if_neg (hne k (by omega))]; exact R.name k (by omega)
  · intro k hk hl
    simp only [Forest.add] at hk hl ⊢
    by_cases h : k = g.next
    · subst h; simp [h0]
    · rw [if_neg h] at hl ⊢
      rw [if_neg (hne k (by omega))]
      exact R.kids k (by omega) hl
  · intro m k hm hout hk
    simp only [Forest.add] at hm hout hk ⊢
    have h1 : m ≠ G.next := fun h => hout g.next (by omega) (h0.trans h.symm)
    rw [if_neg h1] at hm ⊢
    by_cases h : k = g.next
    · intro hc
      rw [h, h0] at hc
      have := M.kids m _ hm hc
      omega
    · exact R.apart m k hm (fun j hj => hout j (by omega)) (by omega)
  · intro m hm
    simp only [Forest.add] at hm ⊢
    split at hm
    · omega
    · have := M.live m hm; omega
  · intro m c hm hc
    simp only [Forest.add] at hm hc ⊢
    split at hm
    · rename_i h
      rw [if_pos h] at hc
      simp at hc
    · rename_i h
      rw [if_neg h] at hc
      have := M.kids m c hm hc
      omega
  · intro k hk
    simp only [Forest.add] at hk ⊢
    rw [fl k (by omega)]
    omega

theorem Grows.setKids {g G : Forest} (S : Grows ρ g G) {p : Nat} (hp : p < g.next) {l : List Child} (hl : ∀ c, Child.node c ∈ l → c < g.next) :
    Grows ρ (g.setKids p l) (G.setKids (ρ p) (l.map (Child.as ρ))) := by
  obtain ⟨R, M, fl⟩ := S
  refine ⟨(R.setKids hp).1, ⟨M.live, ?_⟩, fl⟩
  intro m c hm hc
  simp only [Forest.setKids] at hm hc ⊢
  split at hc
  · obtain ⟨c', h1, h2⟩ := List.mem_map.1 hc
    obtain ⟨k, rfl, rfl⟩ := node_as.1 h2
    exact R.lt k (hl k h1)
  · exact M.kids m c hm hc

/-! ## A copy -/

/-- What was there before stays as it was. -/
structure Old (n : Nat) (g g' : Forest) : Prop where
  next : g.next ≤ g'.next
  live : ∀ m, m < n → g'.live m = g.live m
  name : ∀ m, m < n → g'.name m = g.name m
  kids : ∀ m, m < n → g'.kids m = g.kids m

theorem Old.refl (n : Nat) (g : Forest) : Old n g g := ⟨Nat.le_refl _, fun _ _ => rfl, fun _ _ => rfl, fun _ _ => rfl⟩

theorem Old.trans {n n' : Nat} {a b c : Forest} (h1 : Old n a b) (h2 : Old n' b c) (hn : n ≤ n') : Old n a c :=
  ⟨Nat.le_trans h1.next h2.next, fun m hm => (h2.live m (by omega)).trans (h1.live m hm), fun m hm => (h2.name m (by omega)).trans (h1.name m hm),
    fun m hm => (h2.kids m (by omega)).trans (h1.kids m hm)⟩

theorem old_add (g : Forest) (name : List Char) : Old g.next g (g.add name) := by
  refine ⟨Nat.le_succ _, ?_, ?_, ?_⟩ <;> intro m hm <;> simp only [Forest.add] <;> rw [if_neg (by omega)]

theorem old_setKids (g : Forest) (p : Nat) (l : List Child) : Old p g (g.setKids p l) := by
  refine ⟨Nat.le_refl _, fun _ _ => rfl, fun _ _ => rfl, fun m hm => ?_⟩
  simp only [Forest.setKids]
  rw [if_neg (by omega)]

theorem old_addCopy (f : Forest) : ∀ (d : Nat) (g : Forest) (n : Nat), Old g.next g (f.addCopy d g n)
  | 0, g, _ => .refl ..
  | d + 1, g, n => by
    rw [addCopy_succ]
    have : ∀ (l : List Child) (acc : Forest), g.next ≤ acc.next → Old g.next acc (l.foldl (copyKid f d g.next) acc) := by
      intro l
      induction l with
      | nil => exact fun acc _ => .refl ..
      | cons c l ih =>
        intro acc hacc
        rw [List.foldl_cons]
        have h1 : Old g.next acc (copyKid f d g.next acc c) := by
          cases c with
          | text k s => exact old_setKids ..
          | node m =>
            have h := old_addCopy f d acc m
            exact Old.trans (n := g.next) ⟨h.next, fun m hm => h.live m (by omega), fun m hm => h.name m (by omega), fun m hm => h.kids m (by omega)⟩
              (old_setKids _ g.next _) (Nat.le_refl _)
        exact h1.trans (ih _ (Nat.le_trans hacc h1.next)) (Nat.le_refl _)
    exact (old_add g _).trans (this _ _ (Nat.le_succ _)) (Nat.le_refl _)

theorem next_lt_addCopy (f : Forest) (d : Nat) (g : Forest) (n : Nat) : g.next < (f.addCopy (d + 1) g n).next := by
  rw [addCopy_succ]
  have : ∀ (l : List Child) (acc : Forest), acc.next ≤ (l.foldl (copyKid f d g.next) acc).next := by
    intro l
    induction l with
    | nil => exact fun acc => Nat.le_refl _
    | cons c l ih =>
      intro acc
      rw [List.foldl_cons]
      refine Nat.le_trans ?_ (ih _)
      cases c with
      | text k s => exact Nat.le_refl _
      | node m => exact (old_addCopy f d acc m).next
  exact Nat.lt_of_lt_of_le (Nat.lt_succ_self _) (this _ (g.add _))

/-- A copy made when there are other nodes in memory. -/
theorem Grows.addCopy (R : In ρ f F) (T : Tame f) : ∀ (d D n : Nat) (g G : Forest), f.live n = true → Depth f d n → Depth F D (ρ n) → Grows ρ g G →
    Grows ρ (f.addCopy d g n) (F.addCopy D G (ρ n))
  | 0, _, _, _, _, _, h, _, _ => h.elim
  | _ + 1, 0, _, _, _, _, _, h, _ => h.elim
  | d + 1, D + 1, n, g, G, hn, hd, hD, S => by
    have hb := T.bound _ hn
    have h0 : ρ g.next = G.next := by rw [S.flat _ (Nat.le_refl _)]; omega
    rw [addCopy_succ, addCopy_succ, R.name n hb, R.kids n hb hn]
    have key : ∀ (l : List Child) (acc Acc : Forest), (∀ c, Child.node c ∈ l → Child.node c ∈ f.kids n) → Grows ρ acc Acc →
        g.next < acc.next → acc.live g.next = true → (∀ c, Child.node c ∈ acc.kids g.next → c < acc.next) →
        Grows ρ (l.foldl (copyKid f d g.next) acc) ((l.map (Child.as ρ)).foldl (copyKid F D G.next) Acc) := by
      intro l
      induction l with
      | nil => exact fun acc Acc _ h _ _ _ => h
      | cons c l ih =>
        intro acc Acc hl hS hlt hlive hkids
        rw [List.map_cons, List.foldl_cons, List.foldl_cons]
        cases c with
        | text k s =>
          have hk := hS.isIn.kids _ hlt hlive
          rw [h0] at hk
          have h1 := hS.setKids (l := acc.kids g.next ++ [.text k s]) hlt (by
            intro c hc
            simp only [List.mem_append, List.mem_singleton, reduceCtorEq, or_false] at hc
            exact hkids c hc)
          rw [List.map_append, h0, ← hk] at h1
          refine ih _ _ (fun c hc => hl c (List.mem_cons_of_mem _ hc)) h1 hlt hlive ?_
          intro c hc
          simp only [copyKid, Forest.setKids, if_true, List.mem_append, List.mem_singleton, reduceCtorEq, or_false] at hc
          exact hkids c hc
        | node m =>
          have hm : Edge f n m := ⟨hn, hl m (List.mem_cons_self ..)⟩
          have hdm : Depth f d m := hd m hm
          have hDm : Depth F D (ρ m) := hD _ ((R.edge T hb).2 ⟨m, rfl, hm⟩)
          have hS' := Grows.addCopy R T d D m acc Acc (T.closed _ _ hm) hdm hDm hS
          have O := old_addCopy f d acc m
          have hlt' : acc.next < (f.addCopy d acc m).next := by
            match d, hdm with
            | 0, h => exact h.elim
            | d + 1, _ => exact next_lt_addCopy ..
          have hlive' : (f.addCopy d acc m).live g.next = true := by rw [O.live _ hlt]; exact hlive
          have hp : g.next < (f.addCopy d acc m).next := by omega
          have hk := hS'.isIn.kids _ hp hlive'
          rw [h0] at hk
          have hkids' : ∀ c, Child.node c ∈ (f.addCopy d acc m).kids g.next ++ [.node acc.next] → c < (f.addCopy d acc m).next := by
            intro c hc
            simp only [List.mem_append, List.mem_singleton, Child.node.injEq] at hc
            rcases hc with hc | rfl
            · rw [O.kids _ hlt] at hc
              exact Nat.lt_trans (hkids c hc) hlt'
            · exact hlt'
          have h1 := hS'.setKids (l := (f.addCopy d acc m).kids g.next ++ [.node acc.next]) hp hkids'
          have h2 : ρ acc.next = Acc.next := by rw [hS.flat _ (Nat.le_refl _)]; omega
          rw [List.map_append, h0, ← hk, List.map_singleton, Child.as, h2] at h1
          refine ih _ _ (fun c hc => hl c (List.mem_cons_of_mem _ hc)) h1 hp hlive' ?_
          intro c hc
          simp only [copyKid, Forest.setKids, if_true] at hc
          exact hkids' c hc
    refine key _ _ _ (fun c hc => hc) (S.add _) (Nat.lt_succ_self _) (by simp [Forest.add]) (by simp [Forest.add])

theorem grows_extend (R : In ρ f F) (T : Tame f) (TF : Tame F) : Grows (extend ρ f.next F.next) f F :=
  ⟨R.extend T, TF.made, fun k hk => by unfold Forest.extend; rw [if_neg (by omega)]⟩

theorem Grows.next {g G g' G' : Forest} (S : Grows ρ g G) (S' : Grows ρ g' G') (h : g.next ≤ g'.next) : G'.next = G.next + (g'.next - g.next) := by
  have h1 := S.flat g'.next h
  have h2 := S'.flat g'.next (Nat.le_refl _)
  omega

/-! ## A call -/

/-- What a call of a thread does when there are other nodes in memory. -/
structure Same (ρ : Nat → Nat) (f F : Forest) (op : Op) : Prop where
  fits : F.fits (op.as ρ) = true
  isIn : In (extend ρ f.next F.next) (f.step op) (F.step (op.as ρ))
  le : f.next ≤ (f.step op).next
  next : (F.step (op.as ρ)).next = F.next + ((f.step op).next - f.next)
  frame : Frame ρ f F (F.step (op.as ρ))

/-- A call that creates no nodes. -/
theorem same_stay {h H : Heap} (I : Inv h f) {op : Op} (hf : f.fits op = true) (fits : F.fits (op.as ρ) = true)
    (e1 : (f.step op).next = f.next) (e2 : (F.step (op.as ρ)).next = F.next)
    (R : In ρ (f.step op) (F.step (op.as ρ)) ∧ Frame ρ f F (F.step (op.as ρ))) : Same ρ f F op := by
  obtain ⟨_, _, I'⟩ := inv_exec I hf
  have := R.1.extend I'.2
  rw [e1, e2] at this
  exact ⟨fits, this, by omega, by omega, R.2⟩

theorem In.inner (R : In ρ f F) {p : Nat} (hp : p < f.next) (hl : f.live p = true) (i : Nat) : F.inner (ρ p) i = f.inner p i := by
  unfold Forest.inner
  rw [R.kids p hp hl, List.getElem?_map, List.length_map]
  rcases (f.kids p)[i]? with _ | c
  · rfl
  · cases c <;> rfl

theorem map_eraseIdx {g : Child → Child} : ∀ (l : List Child) (i : Nat), (l.map g).eraseIdx i = (l.eraseIdx i).map g
  | [], _ => rfl
  | _ :: _, 0 => rfl
  | c :: l, i + 1 => by simp only [List.map_cons, List.eraseIdx_cons_succ, map_eraseIdx l i]

theorem isContent_as (c : Child) : Heap.isContent (c.as ρ) = Heap.isContent c := by cases c <;> rfl

theorem as_eq_node {n : Nat} (hn : n < f.next) (R : In ρ f F) {c : Child} (hc : ∀ k, c = .node k → k < f.next) : c.as ρ = .node (ρ n) ↔ c = .node n := by
  cases c with
  | text => simp [Child.as]
  | node k =>
    simp only [Child.as, Child.node.injEq]
    exact ⟨fun h => R.inj k n (hc k rfl) hn h, fun h => h ▸ rfl⟩

theorem In.removeNode (R : In ρ f F) (T : Tame f) {n : Nat} (hn : n < f.next) :
    In ρ { f with kids := fun p => (f.kids p).filter (· != .node n) } { F with kids := fun p => (F.kids p).filter (· != .node (ρ n)) } ∧
      Frame ρ f F { F with kids := fun p => (F.kids p).filter (· != .node (ρ n)) } := by
  refine R.mapKids T hn (u := fun l => l.filter (· != .node n)) (U := fun l => l.filter (· != .node (ρ n))) ?_ ?_
  · intro l hl
    rw [List.filter_map]
    congr 1
    apply List.filter_congr
    intro c hc
    have := as_eq_node hn R (c := c) fun k hk => hl k (hk ▸ hc)
    simp only [Function.comp, bne, Bool.not_eq_eq_eq_not, Bool.not_not]
    rw [Bool.eq_iff_iff, beq_iff_eq, beq_iff_eq]
    exact this
  · intro l hl
    apply List.filter_eq_self.2
    intro c hc
    simp only [bne_iff_ne, ne_eq]
    exact fun h => hl (h ▸ hc)

theorem In.replaceNode (R : In ρ f F) (T : Tame f) {n m : Nat} (hn : n < f.next) :
    In ρ { f with kids := fun p => (f.kids p).map fun c => if c = .node n then .node m else c }
        { F with kids := fun p => (F.kids p).map fun c => if c = .node (ρ n) then .node (ρ m) else c } ∧
      Frame ρ f F { F with kids := fun p => (F.kids p).map fun c => if c = .node (ρ n) then .node (ρ m) else c } := by
  refine R.mapKids T hn (u := fun l => l.map fun c => if c = .node n then .node m else c)
    (U := fun l => l.map fun c => if c = .node (ρ n) then .node (ρ m) else c) ?_ ?_
  · intro l hl
    rw [List.map_map, List.map_map]
    apply List.map_congr_left
    intro c hc
    have := as_eq_node hn R (c := c) fun k hk => hl k (hk ▸ hc)
    simp only [Function.comp, this]
    split <;> rfl
  · intro l hl
    conv => rhs; rw [← List.map_id l]
    apply List.map_congr_left
    intro c hc
    rw [if_neg (fun h : c = .node (ρ n) => hl (h ▸ hc)), id]

/-- A call of a thread, in a memory where there are other nodes, may be made and does what it does when the thread is
alone. -/
theorem same_step {h H : Heap} (I : Inv h f) (J : Inv H F) (R : In ρ f F) {op : Op} (hf : f.fits op = true) : Same ρ f F op := by
  have T := I.2
  have TF := J.2
  have hS := grows_extend R T TF
  have frame_old : ∀ {F' : Forest}, Old F.next F F' → Frame ρ f F F' :=
    fun O => ⟨fun m hm _ => O.live m hm, fun m hm _ => O.name m hm, fun m hm _ _ => O.kids m hm⟩
  cases op with
  | create name =>
    exact ⟨rfl, (hS.add name).isIn, Nat.le_succ _, hS.next (hS.add name) (Nat.le_succ _), frame_old (old_add F name)⟩
  | copy n childs =>
    simp only [Forest.fits] at hf
    have hb := T.bound _ hf
    have fits : F.fits (.copy (ρ n) childs) = true := by
      simp only [Forest.fits]
      rw [R.live n hb]
      exact hf
    cases childs with
    | false =>
      have e : F.step (.copy (ρ n) false) = F.add (f.name n) := by
        simp only [Forest.step, Bool.false_eq_true, if_false]
        rw [R.name n hb]
      refine ⟨fits, ?_, Nat.le_succ _, ?_, ?_⟩ <;> simp only [Op.as] <;> rw [e]
      · exact (hS.add _).isIn
      · exact hS.next (hS.add _) (Nat.le_succ _)
      · exact frame_old (old_add F _)
    | true =>
      have e : extend ρ f.next F.next n = ρ n := if_pos hb
      have hSc := Grows.addCopy hS.isIn T f.next F.next n f F hf (depth_next T hf) (by
        rw [e]
        exact depth_next TF (by rw [R.live n hb]; exact hf)) hS
      rw [e] at hSc
      exact ⟨fits, hSc.isIn, (old_addCopy f _ f n).next, hS.next hSc (old_addCopy f _ f n).next, frame_old (old_addCopy F _ F _)⟩
  | setChild p v =>
    simp only [Forest.fits, Bool.and_eq_true] at hf
    have hb := T.bound _ hf.1
    refine same_stay (h := h) (H := H) I (by simpa only [Forest.fits, Bool.and_eq_true] using hf) ?_ rfl rfl ?_
    · simp only [Op.as, Forest.fits, Bool.and_eq_true]
      exact ⟨by rw [R.live p hb]; exact hf.1, R.mayGo T TF hb hf.2⟩
    · have := R.setKids hb (l := f.kids p ++ [v])
      rw [List.map_append, ← R.kids p hb hf.1] at this
      exact this
  | setChildRef p v =>
    simp only [Forest.fits, Bool.and_eq_true] at hf
    have hb := T.bound _ hf.1
    refine same_stay (h := h) (H := H) I (by simpa only [Forest.fits, Bool.and_eq_true] using hf) ?_ rfl rfl ?_
    · simp only [Op.as, Forest.fits, Bool.and_eq_true]
      exact ⟨by rw [R.live p hb]; exact hf.1, R.mayGo T TF hb hf.2⟩
    · have := R.setKids hb (l := f.kids p ++ [v])
      rw [List.map_append, ← R.kids p hb hf.1] at this
      exact this
  | setAfter p i v =>
    simp only [Forest.fits, Bool.and_eq_true] at hf
    have hb := T.bound _ hf.1.1
    refine same_stay (h := h) (H := H) I (by simpa only [Forest.fits, Bool.and_eq_true] using hf) ?_ rfl rfl ?_
    · simp only [Op.as, Forest.fits, Bool.and_eq_true]
      refine ⟨⟨by rw [R.live p hb]; exact hf.1.1, ?_⟩, R.mayGo T TF hb hf.2⟩
      rw [R.kids p hb hf.1.1, List.length_map]
      exact hf.1.2
    · have := R.setKids hb (l := (f.kids p).take (i + 1) ++ v :: (f.kids p).drop (i + 1))
      rw [List.map_append, List.map_cons, List.map_take, List.map_drop, ← R.kids p hb hf.1.1] at this
      exact this
  | setIsEmpty p =>
    have hf' := hf
    simp only [Forest.fits, Bool.and_eq_true] at hf
    have hb := T.bound _ hf.1
    refine same_stay (h := h) (H := H) I hf' ?_ rfl rfl ?_
    · simp only [Op.as, Forest.fits, Bool.and_eq_true]
      refine ⟨by rw [R.live p hb]; exact hf.1, ?_⟩
      rw [R.kids p hb hf.1, ← hf.2]
      simp only [List.all_map, List.head?_map, List.getLast?_map, Option.all_map, Function.comp_def, isContent_as]
    · have := R.setKids hb (l := (f.kids p).filter fun c => !Heap.isContent c)
      have e : ((f.kids p).filter fun c => !Heap.isContent c).map (Child.as ρ) = (F.kids (ρ p)).filter fun c => !Heap.isContent c := by
        rw [R.kids p hb hf.1, List.filter_map]
        simp only [Function.comp_def, isContent_as]
      rw [e] at this
      exact this
  | transfer p q =>
    have hf' := hf
    simp only [Forest.fits, Bool.and_eq_true, Bool.not_eq_true'] at hf
    obtain ⟨⟨hp, hq⟩, hpq⟩ := hf
    have hb := T.bound _ hp
    have hc := T.bound _ hq
    refine same_stay (h := h) (H := H) I hf' ?_ rfl rfl ?_
    · simp only [Op.as, Forest.fits, Bool.and_eq_true, Bool.not_eq_true']
      rw [R.live p hb, R.live q hc, R.below T TF hp hc]
      exact ⟨⟨hp, hq⟩, hpq⟩
    · have h1 := R.setKids hc (l := f.kids q ++ f.kids p)
      rw [List.map_append, ← R.kids p hb hp, ← R.kids q hc hq] at h1
      have h2 := h1.1.setKids (p := p) hb (l := [])
      exact ⟨h2.1, h1.2.trans h2.2 rfl rfl⟩
  | transferAfter p q i =>
    have hf' := hf
    simp only [Forest.fits, Bool.and_eq_true, Bool.not_eq_true'] at hf
    obtain ⟨⟨⟨hp, hq⟩, hpq⟩, hi⟩ := hf
    have hb := T.bound _ hp
    have hc := T.bound _ hq
    refine same_stay (h := h) (H := H) I hf' ?_ rfl rfl ?_
    · simp only [Op.as, Forest.fits, Bool.and_eq_true, Bool.not_eq_true']
      rw [R.live p hb, R.live q hc, R.below T TF hp hc, R.kids q hc hq, List.length_map]
      exact ⟨⟨⟨hp, hq⟩, hpq⟩, hi⟩
    · have h1 := R.setKids hc (l := (f.kids q).take (i + 1) ++ f.kids p ++ (f.kids q).drop (i + 1))
      rw [List.map_append, List.map_append, List.map_take, List.map_drop, ← R.kids p hb hp, ← R.kids q hc hq] at h1
      have h2 := h1.1.setKids (p := p) hb (l := [])
      exact ⟨h2.1, h1.2.trans h2.2 rfl rfl⟩
  | free n =>
    have hf' := hf
    simp only [Forest.fits, Bool.and_eq_true, Bool.not_eq_true'] at hf
    have hb := T.bound _ hf.1
    refine same_stay (h := h) (H := H) I hf' ?_ rfl rfl (R.kill T TF hf.1)
    simp only [Op.as, Forest.fits, Bool.and_eq_true, Bool.not_eq_true']
    rw [R.live n hb, R.attached T TF hb]
    exact hf
  | removeNode n dealloc =>
    have hf' := hf
    simp only [Forest.fits, Bool.and_eq_true] at hf
    have hb := T.bound _ hf.1
    have fits : F.fits (.removeNode (ρ n) false) = true := by
      simp only [Forest.fits, Bool.and_eq_true]
      rw [R.live n hb, R.attached T TF hb]
      exact hf
    have h1 := R.removeNode T hb
    cases dealloc with
    | false => exact same_stay (h := h) (H := H) I hf' fits rfl rfl h1
    | true =>
      obtain ⟨_, _, I1⟩ := inv_exec I (op := .removeNode n false) hf'
      obtain ⟨_, _, J1⟩ := inv_exec J fits
      have h2 := h1.1.kill (n := n) I1.2 J1.2 hf.1
      exact same_stay (h := h) (H := H) I hf' fits rfl rfl ⟨h2.1, h1.2.trans h2.2 rfl rfl⟩
  | removeItem p i dealloc =>
    have hf' := hf
    simp only [Forest.fits, Bool.and_eq_true] at hf
    have hb := T.bound _ hf.1
    have fits : F.fits (.removeItem (ρ p) i false) = true := by
      simp only [Forest.fits, Bool.and_eq_true]
      rw [R.live p hb, R.inner hb hf.1]
      exact hf
    have h1 := R.setKids hb (l := (f.kids p).eraseIdx i)
    have e : ((f.kids p).eraseIdx i).map (Child.as ρ) = (F.kids (ρ p)).eraseIdx i := by
      rw [R.kids p hb hf.1, map_eraseIdx]
    rw [e] at h1
    cases dealloc with
    | false => exact same_stay (h := h) (H := H) I hf' fits rfl rfl h1
    | true =>
      obtain ⟨_, _, I1⟩ := inv_exec I (op := .removeItem p i false) hf'
      obtain ⟨_, _, J1⟩ := inv_exec J fits
      have h2 := h1.1.killChild I1.2 J1.2 (c := (f.kids p)[i]?) (fun n hn => T.closed p n ⟨hf.1, List.mem_of_getElem? hn⟩)
      rw [← List.getElem?_map, ← R.kids p hb hf.1] at h2
      have n1 : ∀ (g : Forest) c, (g.killChild c).next = g.next := by
        intro g c
        rcases c with _ | c
        · rfl
        · cases c <;> rfl
      exact same_stay (h := h) (H := H) I hf' fits (n1 _ _) (n1 _ _) ⟨h2.1, h1.2.trans h2.2 rfl rfl⟩
  | replaceItem p i v dealloc =>
    have hf' := hf
    simp only [Forest.fits, Bool.and_eq_true] at hf
    have hb := T.bound _ hf.1.1
    have fits : F.fits (.replaceItem (ρ p) i (v.as ρ) false) = true := by
      simp only [Forest.fits, Bool.and_eq_true]
      refine ⟨?_, R.mayGo T TF hb hf.2⟩
      rw [R.live p hb, R.inner hb hf.1.1]
      exact hf.1
    have h1 := R.setKids hb (l := (f.kids p).set i v)
    have e : ((f.kids p).set i v).map (Child.as ρ) = (F.kids (ρ p)).set i (v.as ρ) := by
      rw [R.kids p hb hf.1.1, List.map_set]
    rw [e] at h1
    cases dealloc with
    | false => exact same_stay (h := h) (H := H) I hf' fits rfl rfl h1
    | true =>
      obtain ⟨_, _, I1⟩ := inv_exec I (op := .replaceItem p i v false) hf'
      obtain ⟨_, _, J1⟩ := inv_exec J fits
      have h2 := h1.1.killChild I1.2 J1.2 (c := (f.kids p)[i]?) (fun n hn => T.closed p n ⟨hf.1.1, List.mem_of_getElem? hn⟩)
      rw [← List.getElem?_map, ← R.kids p hb hf.1.1] at h2
      have n1 : ∀ (g : Forest) c, (g.killChild c).next = g.next := by
        intro g c
        rcases c with _ | c
        · rfl
        · cases c <;> rfl
      exact same_stay (h := h) (H := H) I hf' fits (n1 _ _) (n1 _ _) ⟨h2.1, h1.2.trans h2.2 rfl rfl⟩
  | replaceNode n m dealloc =>
    have hf' := hf
    simp only [Forest.fits, Bool.and_eq_true, List.all_eq_true, List.mem_range, Bool.or_eq_true, Bool.not_eq_true', Bool.and_eq_false_imp] at hf
    obtain ⟨⟨hn, ha⟩, hall⟩ := hf
    have hb := T.bound _ hn
    have fits : F.fits (.replaceNode (ρ n) (ρ m) false) = true := by
      simp only [Forest.fits, Bool.and_eq_true, List.all_eq_true, List.mem_range, Bool.or_eq_true, Bool.not_eq_true']
      rw [R.live n hb, R.attached T TF hb]
      refine ⟨⟨hn, ha⟩, ?_⟩
      intro p hp
      by_cases hx : (F.live p && (nodesOf (F.kids p)).contains (ρ n)) = true
      · right
        rw [Bool.and_eq_true, List.contains_iff_mem, mem_nodesOf] at hx
        obtain ⟨k, rfl, ek⟩ := (R.edge_to T hb).1 hx
        have hk := T.bound _ ek.1
        have hg : f.mayGo k (.node m) = true := by
          rcases hall k hk with h' | h'
          · have := h' ek.1
            rw [← Bool.not_eq_true, List.contains_iff_mem, mem_nodesOf] at this
            exact absurd ek.2 this
          · exact h'
        exact R.mayGo T TF hk (v := .node m) hg
      · left
        simpa using hx
    have h1 := R.replaceNode (m := m) T hb
    cases dealloc with
    | false => exact same_stay (h := h) (H := H) I hf' fits rfl rfl h1
    | true =>
      obtain ⟨_, _, I1⟩ := inv_exec I (op := .replaceNode n m false) hf'
      obtain ⟨_, _, J1⟩ := inv_exec J fits
      have h2 := h1.1.kill (n := n) I1.2 J1.2 hn
      exact same_stay (h := h) (H := H) I hf' fits rfl rfl ⟨h2.1, h1.2.trans h2.2 rfl rfl⟩

/-! ## Many calls -/

/-- The threads and the memory. -/
structure World (ts : Nat → Thread) (F : Forest) : Prop where
  memory : ∃ H, Inv H F
  alone : ∀ t, (ts t).alone = Forest.empty.run (ts t).done
  heap : ∀ t, ∃ h, Heap.empty.run (ts t).done = some h ∧ Inv h (ts t).alone
  todo : ∀ t, (ts t).alone.Fits (ts t).todo = true
  isIn : ∀ t, In (ts t).at_ (ts t).alone F
  apart : ∀ t u j k, j < (ts t).alone.next → k < (ts u).alone.next → (ts t).at_ j = (ts u).at_ k → t = u

theorem run_append (f : Forest) : ∀ (a b : List Op), f.run (a ++ b) = (f.run a).run b := by
  intro a
  induction a generalizing f with
  | nil => exact fun _ => rfl
  | cons op a ih => exact fun b => ih (f.step op) b

theorem heap_run_append (h : Heap) : ∀ (a b : List Op), h.run (a ++ b) = (h.run a).bind fun h' => h'.run b := by
  intro a
  induction a generalizing h with
  | nil => exact fun _ => rfl
  | cons op a ih =>
    intro b
    simp only [List.cons_append, Heap.run]
    cases h.exec op with
    | none => rfl
    | some h' => exact ih h' b

theorem World.call {ts : Nat → Thread} (W : World ts F) {t : Nat} {op : Op} {todo : List Op} (ht : (ts t).todo = op :: todo) :
    F.fits (op.as (ts t).at_) = true ∧
      World (fun u => if u = t then (ts t).call op todo F.next else ts u) (F.step (op.as (ts t).at_)) ∧
      (F.step (op.as (ts t).at_)).next = F.next + (((ts t).alone.step op).next - (ts t).alone.next) := by
  obtain ⟨H, J⟩ := W.memory
  obtain ⟨h, hr, I⟩ := W.heap t
  have hf := W.todo t
  rw [ht] at hf
  simp only [Forest.Fits, Bool.and_eq_true] at hf
  have S := same_step I J (W.isIn t) hf.1
  obtain ⟨h', he, I'⟩ := inv_exec I hf.1
  obtain ⟨H', _, J'⟩ := inv_exec J S.fits
  have hold : ∀ u, u ≠ t → ∀ k, k < (ts u).alone.next → ∀ j, j < ((ts t).alone.step op).next →
      Forest.extend (ts t).at_ (ts t).alone.next F.next j ≠ (ts u).at_ k := by
    intro u hu k hk j hj e
    unfold Forest.extend at e
    split at e
    · rename_i hj'
      exact hu (W.apart t u j k hj' hk e).symm
    · have := (W.isIn u).lt k hk
      omega
  refine ⟨S.fits, ⟨⟨H', J'⟩, ?_, ?_, ?_, ?_, ?_⟩, S.next⟩
  · intro u
    by_cases hu : u = t
    · subst hu
      simp only [if_true, Thread.call, run_append, ← W.alone u]
      rfl
    · simp only [if_neg hu]; exact W.alone u
  · intro u
    by_cases hu : u = t
    · subst hu
      simp only [if_true, Thread.call, heap_run_append, hr, Option.bind_some]
      refine ⟨h', ?_, I'⟩
      simp only [Heap.run, he]
      first | rfl | simp
    · simp only [if_neg hu]; exact W.heap u
  · intro u
    by_cases hu : u = t
    · subst hu
      simp only [if_true, Thread.call]
      exact hf.2
    · simp only [if_neg hu]; exact W.todo u
  · intro u
    by_cases hu : u = t
    · subst hu
      simp only [if_true]
      exact S.isIn
    · simp only [if_neg hu]
      have R := W.isIn u
      have out : ∀ k, k < (ts u).alone.next → ∀ j, j < (ts t).alone.next → (ts t).at_ j ≠ (ts u).at_ k :=
        fun k hk j hj e => hu (W.apart t u j k hj hk e).symm
      refine ⟨?_, R.inj, ?_, ?_, ?_, ?_⟩
      · intro k hk
        have := R.lt k hk
        have := S.next
        omega
      · intro k hk
        rw [S.frame.live _ (R.lt k hk) (out k hk)]
        exact R.live k hk
      · intro k hk
        rw [S.frame.name _ (R.lt k hk) (out k hk)]
        exact R.name k hk
      · intro k hk hl
        rw [S.frame.kids _ (R.lt k hk) (by rw [R.live k hk]; exact hl) (out k hk)]
        exact R.kids k hk hl
      · intro m k hm hout hk
        by_cases hx : ∃ j, j < ((ts t).alone.step op).next ∧ Forest.extend (ts t).at_ (ts t).alone.next F.next j = m
        · obtain ⟨j, hj, rfl⟩ := hx
          have hl : ((ts t).alone.step op).live j = true := by rw [← S.isIn.live j hj]; exact hm
          rw [S.isIn.kids j hj hl]
          intro hc
          obtain ⟨c, h1, h2⟩ := List.mem_map.1 hc
          obtain ⟨i, rfl, h3⟩ := node_as.1 h2
          exact hold u hu k hk i (I'.2.bound _ (I'.2.closed _ _ ⟨hl, h1⟩)) h3.symm
        · have hb := J'.2.bound _ hm
          have hlt : m < F.next := by
            refine Classical.byContradiction fun hge => hx ⟨(ts t).alone.next + (m - F.next), ?_, ?_⟩
            · have := S.next; have := S.le; omega
            · unfold Forest.extend
              rw [if_neg (by omega)]
              omega
          have hne : ∀ j, j < (ts t).alone.next → (ts t).at_ j ≠ m := by
            intro j hj e
            exact hx ⟨j, by have := S.le; omega, by unfold Forest.extend; rw [if_pos hj]; exact e⟩
          have hl : F.live m = true := by rw [← S.frame.live m hlt hne]; exact hm
          rw [S.frame.kids m hlt hl hne]
          exact R.apart m k hl hout hk
  · intro u v j k
    by_cases hu : u = t <;> by_cases hv : v = t
    · intro _ _ _; rw [hu, hv]
    · subst hu
      simp only [if_true, if_neg hv]
      intro hj hk e
      exact absurd e (hold v hv k hk j hj)
    · subst hv
      simp only [if_true, if_neg hu]
      intro hj hk e
      exact absurd e.symm (hold u hu j hj k hk)
    · simp only [if_neg hu, if_neg hv]
      exact W.apart u v j k

theorem World.interleave : ∀ (order : List Nat) {ts : Nat → Thread} {F : Forest}, World ts F →
    F.Fits (Tree.interleave order ts F.next).1 = true ∧
      World (Tree.interleave order ts F.next).2 (F.run (Tree.interleave order ts F.next).1)
  | [], _, _, W => ⟨rfl, W⟩
  | t :: order, ts, F, W => by
    rw [Tree.interleave]
    split
    · exact World.interleave order W
    · rename_i op todo ht
      obtain ⟨h1, h2, h3⟩ := W.call ht
      have h4 := World.interleave order h2
      rw [h3] at h4
      simp only [Forest.Fits, Bool.and_eq_true, Forest.run]
      exact ⟨⟨h1, h4.1⟩, h4.2⟩

theorem world_start {calls : Nat → List Op} (hf : ∀ t, Forest.empty.Fits (calls t) = true) : World (fun t => .start (calls t)) Forest.empty where
  memory := ⟨_, inv_empty⟩
  alone := fun _ => rfl
  heap := fun _ => ⟨_, rfl, inv_empty⟩
  todo := hf
  isIn := fun t => by
    refine ⟨?_, ?_, ?_, ?_, ?_, ?_⟩ <;> intros <;> simp_all [Thread.start, Forest.empty]
  apart := fun t u j k hj => by simp [Thread.start, Forest.empty] at hj

/-- The calls of a thread are made in their order: as many as times the thread runs. -/
theorem interleave_done : ∀ (order : List Nat) (ts : Nat → Thread) (next t : Nat),
    ((Tree.interleave order ts next).2 t).done = (ts t).done ++ (ts t).todo.take (order.count t) ∧
      ((Tree.interleave order ts next).2 t).todo = (ts t).todo.drop (order.count t)
  | [], ts, _, t => by simp [Tree.interleave]
  | i :: order, ts, next, t => by
    rw [Tree.interleave]
    split
    · rename_i h0
      obtain ⟨h1, h2⟩ := interleave_done order ts next t
      rw [h1, h2, List.count_cons]
      by_cases h : i = t
      · subst h; simp [h0]
      · simp [h]
    · rename_i op todo h0
      obtain ⟨h1, h2⟩ := interleave_done order (fun j => if j = i then (ts i).call op todo next else ts j)
        (next + (((ts i).alone.step op).next - (ts i).alone.next)) t
      simp only
      rw [h1, h2, List.count_cons]
      by_cases h : t = i
      · subst h
        simp only [if_true, Thread.call, beq_self_eq_true, h0]
        simp
      · have h' : ¬ i = t := fun e => h e.symm
        simp [h, h']

end Axl.Spec.Tree.Forest
