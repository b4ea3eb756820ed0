/-
Proofs for C70, the hash table: what is left of it when it cannot grow.
-/
import Verif.Proofs.Oom
import Verif.Proofs.HashMemRun

namespace Axl
open Spec Spec.Map
variable {κ δ φ : Type}

/-- Where a node of a chain leads. -/
theorem hseg_next {mem : Piece → Option (MNode κ δ φ)} : ∀ {as : List Piece} {ns : List (HashNode κ δ φ)} {p : Option Piece},
    HSeg mem p as ns none → ∀ a ∈ as, ∃ n nx, mem a = some ⟨n, nx⟩ ∧ (nx = none → as.getLast? = some a) ∧ ∀ q, nx = some q → q ∈ as
  | [], _, _, _, _, ha => by cases ha
  | _ :: _, [], _, h, _, _ => h.elim
  | b :: as, n :: ns, p, ⟨_, nx, h2, h3⟩, a, ha => by
    have hh := hseg_head h3
    cases ha with
    | head =>
      refine ⟨n, nx, h2, ?_, ?_⟩
      · rintro rfl
        cases as with
        | nil => rfl
        | cons => cases hh
      · rintro q rfl
        cases as with
        | nil => cases hh
        | cons c as => cases hh; simp
    | tail _ ha =>
      obtain ⟨x, nx', g1, g2, g3⟩ := hseg_next h3 a ha
      refine ⟨x, nx', g1, fun e => ?_, fun q e => List.mem_cons_of_mem _ (g3 q e)⟩
      cases as with
      | nil => cases ha
      | cons c as => rw [List.getLast?_cons_cons]; exact g2 e

namespace MHash

/-- A walk in nodes that all lead to one of them is never over. -/
theorem lastOf_closed {m : MHash κ δ φ} {S : List Piece} (hS : ∀ p ∈ S, ∃ x q, m.mem p = some ⟨x, some q⟩ ∧ q ∈ S) :
    ∀ (n : Nat) (p : Piece), p ∈ S → m.lastOf n p = none
  | 0, _, _ => rfl
  | n + 1, p, hp => by
    obtain ⟨x, q, h1, h2⟩ := hS p hp
    simp [lastOf, h1, lastOf_closed hS n q h2]

/-- A walk that is over ends in the last node. -/
theorem lastOf_end {m : MHash κ δ φ} {L : List Piece} {N : List (HashNode κ δ φ)} {f : Option Piece} (h : HSeg m.mem f L N none) :
    ∀ (n : Nat) (p a : Piece), p ∈ L → m.lastOf n p = some a → L.getLast? = some a
  | 0, _, _, _, e => by cases e
  | n + 1, p, a, hp, e => by
    obtain ⟨x, nx, h1, h2, h3⟩ := hseg_next h p hp
    cases nx with
    | none =>
      simp [lastOf, h1] at e
      subst e
      exact h2 rfl
    | some q =>
      simp only [lastOf, h1, Option.bind_eq_bind, Option.bind_some] at e
      exact lastOf_end h n q a (h3 q rfl) e

theorem link_hangs_next {n : Nat} {m : MHash κ δ φ} {L : List Piece} {N : List (HashNode κ δ φ)} {f : Option Piece}
    (h : HSeg m.mem f L N none) {p a : Piece} (ha : L.getLast? = some a) : ∀ {ts : List (Option Piece)},
    (∀ q, some q ∈ ts → q ∈ L) → ts.filterMap id ≠ [] → link n m ts (some p) (some a) = none
  | [], _, hne => by simp at hne
  | none :: ts, hq, hne => by
    rw [link]
    exact link_hangs_next h ha (fun q hq' => hq q (List.mem_cons_of_mem _ hq')) (by simpa using hne)
  | some q :: ts, hq, _ => by
    have hal : a ∈ L := List.mem_of_getLast? ha
    obtain ⟨x, nx, h1, -⟩ := hseg_next h a hal
    have hset : m.setNext a (some q) = some (m.write a (some ⟨x, some q⟩)) := by simp [setNext, h1]
    have : (m.write a (some ⟨x, some q⟩)).lastOf n a = none := by
      refine lastOf_closed (S := L) ?_ n a hal
      intro b hb
      by_cases e : b = a
      · subst e
        exact ⟨x, q, write_mem _ _ _, hq q (List.mem_cons_self ..)⟩
      · obtain ⟨y, ny, g1, g2, g3⟩ := hseg_next h b hb
        rw [write_ne _ _ e, g1]
        cases ny with
        | none =>
          have := g2 rfl
          rw [ha] at this
          cases this
          exact absurd rfl e
        | some c => exact ⟨y, c, rfl, g3 c rfl⟩
    rw [link]
    simp [hset, this]

theorem link_hangs {n : Nat} {m : MHash κ δ φ} {L : List Piece} {N : List (HashNode κ δ φ)} {f : Option Piece}
    (h : HSeg m.mem f L N none) {aux : Option Piece} : ∀ {ts : List (Option Piece)}, (∀ q, some q ∈ ts → q ∈ L) →
    2 ≤ (ts.filterMap id).length → link n m ts none aux = none
  | [], _, hne => by simp at hne
  | none :: ts, hq, hne => by
    rw [link]
    exact link_hangs h (fun q hq' => hq q (List.mem_cons_of_mem _ hq')) (by simpa using hne)
  | some q :: ts, hq, hne => by
    rw [link]
    cases hl : m.lastOf n q with
    | none => rfl
    | some a =>
      refine link_hangs_next h (lastOf_end h n q a (hq q (List.mem_cons_self ..)) hl)
        (fun q hq' => hq q (List.mem_cons_of_mem _ hq')) ?_
      intro e
      simp [e] at hne

/-- The table after it could not grow: all the nodes are in one chain, and each slot leads into it where its own begin. -/
structure Merged (m : MHash κ δ φ) (h : AxlHash κ δ φ) (A : List (List Piece)) : Prop where
  hash : m.hash = h.hash
  equal : m.equal = h.equal
  items : m.items = h.items
  size : m.hashSize = h.hashSize
  log : m.log = h.log
  lenT : m.table.length = h.table.length
  lenA : A.length = h.table.length
  lens : ∀ (i : Nat) as ns, A[i]? = some as → h.table[i]? = some ns → as.length = ns.length
  slot : ∀ (i : Nat) p as, m.table[i]? = some p → A[i]? = some as → p = as.head?
  chain : HSeg m.mem A.flatten.head? A.flatten h.table.flatten none

theorem link_merged {m : MHash κ δ φ} {h : AxlHash κ δ φ} {A : List (List Piece)} (r : Rel m h A []) {n : Nat}
    (hn : A.flatten.length ≤ n) : ∃ mem' node, link n m m.table none none = some ({ m with mem := mem' }, node) ∧
      Merged { m with mem := mem' } h A := by
  obtain ⟨mem', node, g1, g2⟩ := link_seg (n := n) (m := m) (sA := []) (sN := []) (node := none) (aux := none)
    (by rw [r.lenT, r.lenA]) r.lenT r.chains (by simpa using r.nodup) rfl (by simp) (by simpa using hn)
  simp only [List.nil_append] at g2
  have := hseg_head g2
  subst this
  refine ⟨mem', _, g1, r.hash, r.equal, r.items, r.size, r.log, r.lenT, r.lenA, ?_, ?_, g2⟩
  · intro i as ns h1 h2
    obtain ⟨p, hp⟩ := get_of_length r.lenT h2
    exact hseg_length (r.chains i p as ns hp h1 h2)
  · intro i p as h1 h2
    obtain ⟨ns, hns⟩ := get_of_length r.lenT.symm h1
    exact hseg_head (r.chains i p as ns h1 h2 hns)

theorem flatten_at {α : Type} : ∀ {L : List (List α)} {i : Nat} {c : List α}, L[i]? = some c →
    L.flatten = (L.take i).flatten ++ (c ++ (L.drop (i + 1)).flatten)
  | [], _, _, h => by simp at h
  | b :: L, 0, c, h => by
    simp at h; subst h; simp
  | b :: L, i + 1, c, h => by
    have := flatten_at (L := L) (i := i) (c := c) (by simpa using h)
    simp [this]

theorem lens_take {A : List (List Piece)} {B : List (List (HashNode κ δ φ))} (hl : A.length = B.length)
    (h : ∀ (i : Nat) as ns, A[i]? = some as → B[i]? = some ns → as.length = ns.length) (i : Nat) :
    (A.take i).flatten.length = (B.take i).flatten.length := by
  refine hseg_lengths (by simp [hl]) fun j as ns h1 h2 => ?_
  rw [List.getElem?_take] at h1 h2
  split at h1
  · next hj => rw [if_pos hj] at h2; exact h j as ns h1 h2
  · cases h1

/-- The chain that a slot leads to: its own nodes come first, none of those that follow is of this slot. -/
theorem merged_slot {m : MHash κ δ φ} {h : AxlHash κ δ φ} {A : List (List Piece)} (r : Merged m h A) (ht : AxlHash.TInv h) {i : Nat}
    {ns : List (HashNode κ δ φ)} (hi : h.table[i]? = some ns) :
    (m.table[i]? = some none ∧ ns = []) ∨
    ∃ p L N, m.table[i]? = some (some p) ∧ L.length ≤ A.flatten.length ∧ HSeg m.mem (some p) L (ns ++ N) none ∧
      ∀ y ∈ N, ∃ j, h.hash y.key % h.hashSize = j ∧ j ≠ i := by
  obtain ⟨p, hp⟩ := get_of_length r.lenT hi
  obtain ⟨as, ha⟩ := get_of_length r.lenA hi
  have hpe := r.slot i p as hp ha
  have hlen := r.lens i as ns ha hi
  cases as with
  | nil =>
    refine .inl ⟨by rw [hp, hpe]; rfl, ?_⟩
    cases ns with
    | nil => rfl
    | cons => cases hlen
  | cons a as =>
    have hpe : p = some a := hpe
    subst hpe
    have hc := r.chain
    have eA := flatten_at ha
    have eH := flatten_at hi
    rw [eA, eH] at hc
    obtain ⟨q, -, hs⟩ := (hseg_append (lens_take r.lenA r.lens i)).1 hc
    have hq := hseg_head hs
    have hq : q = some a := hq
    subst hq
    refine .inr ⟨a, _, _, hp, ?_, hs, ?_⟩
    · have := congrArg List.length eA
      simp only [List.length_append] at this ⊢
      omega
    · intro y hy
      rw [List.mem_flatten] at hy
      obtain ⟨c, hc, hyc⟩ := hy
      obtain ⟨j, hj⟩ := List.mem_iff_getElem?.1 hc
      rw [List.getElem?_drop] at hj
      refine ⟨i + 1 + j, ht.place _ c hj y hyc, by omega⟩

theorem lookup_merged {m : MHash κ δ φ} {h : AxlHash κ δ φ} {A : List (List Piece)} (r : Merged m h A) (ht : AxlHash.TInv h) {n : Nat}
    (hn : A.flatten.length ≤ n) {k : κ} {res : Option (HashNode κ δ φ)} (hh : h.lookup k = some res) :
    (res = none ∧ m.lookup n k = some none) ∨
    ∃ x a nx, res = some x ∧ m.lookup n k = some (some a) ∧ m.mem a = some ⟨x, nx⟩ := by
  unfold AxlHash.lookup at hh
  split at hh
  · next h0 =>
    cases hh
    exact .inl ⟨rfl, by simp [lookup, r.size, h0]⟩
  · next h0 =>
    cases hpos : h.pos k with
    | none => simp [hpos] at hh
    | some i =>
    cases hch : h.table[i]? with
    | none => simp [hpos, hch] at hh
    | some ns =>
    simp only [hpos, hch, Option.bind_eq_bind, Option.bind_some, Option.some.injEq] at hh
    have hi : h.hash k % h.hashSize = i := by
      unfold AxlHash.pos at hpos
      rw [if_neg h0] at hpos
      exact Option.some.inj hpos
    have hpos' : m.pos k = some i := by
      unfold pos; unfold AxlHash.pos at hpos
      rw [r.size, r.hash]; exact hpos
    have hm : ∀ p', m.table[i]? = some p' → m.lookup n k = match p' with | none => some none | some p => m.lookupFrom k n p := by
      intro p' hp'
      have : m.hashSize ≠ 0 := by rw [r.size]; exact h0
      simp [lookup, this, hpos', hp']
      rfl
    rcases merged_slot r ht hch with ⟨g1, rfl⟩ | ⟨p, L, N, g1, g2, g3, g4⟩
    · exact .inl ⟨hh.symm, by rw [hm none g1]⟩
    · have hN : ∀ y ∈ N, h.equal y.key k = false := by
        intro y hy
        obtain ⟨j, e1, e2⟩ := g4 y hy
        cases he : h.equal y.key k with
        | false => rfl
        | true =>
          have := ht.cons.hash _ _ he
          rw [this, hi] at e1
          exact absurd e1.symm e2
      rcases find_split h.equal k ns with ⟨e1, e2, e3⟩ | ⟨ns1, x, ns2, rfl, e1, e2, e3, e4, e5⟩
      · rw [e1] at hh
        refine .inl ⟨hh.symm, ?_⟩
        rw [hm (some p) g1]
        refine lookupFrom_none g3 (by omega) ?_
        rw [r.equal]
        intro y hy
        rcases List.mem_append.1 hy with hy | hy
        · exact e3 y hy
        · exact hN y hy
      · rw [e3] at hh
        rw [List.append_assoc, List.cons_append] at g3
        obtain ⟨as1, a, as2, nx, rfl, f1, f2, f3, f4⟩ := hseg_split g3
        refine .inr ⟨x, a, nx, hh.symm, ?_, f3⟩
        rw [hm (some p) g1]
        refine lookupFrom_some f3 (by rw [r.equal]; exact e2) f2 ?_ (by rw [r.equal]; exact e1)
        simp only [List.length_append, List.length_cons] at g2
        omega

theorem get_merged {m : MHash κ δ φ} {h : AxlHash κ δ φ} {A : List (List Piece)} (r : Merged m h A) (ht : AxlHash.TInv h) {n : Nat}
    (hn : A.flatten.length ≤ n) {k : κ} {v : Option δ} (hh : h.get k = some v) : m.get n k = some v := by
  unfold AxlHash.get at hh
  unfold get
  rw [r.items]
  split at hh
  · next h0 => rw [if_pos h0]; exact hh
  · next h0 =>
    rw [if_neg h0]
    cases hl : h.lookup k with
    | none => simp [hl] at hh
    | some res =>
      simp only [hl, Option.bind_eq_bind, Option.bind_some, Option.some.injEq] at hh
      subst hh
      rcases lookup_merged r ht hn hl with ⟨rfl, hm⟩ | ⟨x, a, nx, rfl, hm, e3⟩
      · simp [hm]
      · simp [hm, e3]

theorem exists_merged {m : MHash κ δ φ} {h : AxlHash κ δ φ} {A : List (List Piece)} (r : Merged m h A) (ht : AxlHash.TInv h) {n : Nat}
    (hn : A.flatten.length ≤ n) {k : κ} {v : Bool} (hh : h.exists k = some v) : m.exists n k = some v := by
  unfold AxlHash.exists at hh
  cases hl : h.lookup k with
  | none => simp [hl] at hh
  | some res =>
    simp only [hl, Option.bind_eq_bind, Option.bind_some, Option.some.injEq] at hh
    subst hh
    rcases lookup_merged r ht hn hl with ⟨rfl, hm⟩ | ⟨x, a, nx, rfl, hm, e3⟩
    · simp [«exists», hm]
    · simp [«exists», hm]

theorem two_slots {α : Type} : ∀ {T : List (Option α)} {i j : Nat} {p q : α}, i < j → T[i]? = some (some p) → T[j]? = some (some q) →
    2 ≤ (T.filterMap id).length
  | [], _, _, _, _, _, h, _ => by simp at h
  | t :: T, 0, 0, _, _, hl, _, _ => by omega
  | t :: T, 0, j + 1, p, q, _, h1, h2 => by
    simp only [List.getElem?_cons_zero, Option.some.injEq] at h1
    subst h1
    have h2 : some q ∈ T := List.mem_of_getElem? (by simpa using h2)
    have : q ∈ T.filterMap id := List.mem_filterMap.2 ⟨_, h2, rfl⟩
    have := List.length_pos_of_mem this
    simp
    omega
  | t :: T, i + 1, 0, _, _, hl, _, _ => by omega
  | t :: T, i + 1, j + 1, p, q, hl, h1, h2 => by
    have := two_slots (T := T) (i := i) (j := j) (by omega) (by simpa using h1) (by simpa using h2)
    cases t <;> simp <;> omega

/-- Growing again never ends. -/
theorem growOom_hangs {m : MHash κ δ φ} {h : AxlHash κ δ φ} {A : List (List Piece)} (r : Merged m h A) (ht : AxlHash.TInv h)
    {x y : HashNode κ δ φ} (hx : x ∈ h.table.flatten) (hy : y ∈ h.table.flatten)
    (hxy : h.hash x.key % h.hashSize ≠ h.hash y.key % h.hashSize) (n : Nat) (a : Answers) : m.growOom n a = none := by
  have slot : ∀ z ∈ h.table.flatten, ∃ p : Piece, m.table[h.hash z.key % h.hashSize]? = some (some p) := by
    intro z hz
    obtain ⟨c, hc, hzc⟩ := List.mem_flatten.1 hz
    obtain ⟨i, hi⟩ := List.mem_iff_getElem?.1 hc
    rw [ht.place i c hi z hzc]
    rcases merged_slot r ht hi with ⟨-, rfl⟩ | ⟨p, L, N, g1, -⟩
    · cases hzc
    · exact ⟨p, g1⟩
  obtain ⟨p, hp⟩ := slot x hx
  obtain ⟨q, hq⟩ := slot y hy
  have h2 : 2 ≤ (m.table.filterMap id).length := by
    rcases Nat.lt_or_gt_of_ne hxy with hlt | hlt
    · exact two_slots hlt hp hq
    · exact two_slots hlt hq hp
  have hin : ∀ q, some q ∈ m.table → q ∈ A.flatten := by
    intro q hq
    obtain ⟨i, hi⟩ := List.mem_iff_getElem?.1 hq
    obtain ⟨as, ha⟩ := get_of_length (r.lenA.trans r.lenT.symm) hi
    have := r.slot i _ as hi ha
    exact List.mem_flatten.2 ⟨as, List.mem_of_getElem? ha, List.mem_of_head? this.symm⟩
  unfold growOom
  rw [link_hangs r.chain hin h2]
  rfl

theorem insertFullOom_refused {m : MHash κ δ φ} {h : AxlHash κ δ φ} {A : List (List Piece)} (r : Rel m h A []) {n : Nat}
    (hn : A.flatten.length ≤ n) (h0 : m.hashSize ≠ 0) (hf : m.hashSize = m.items) {k : κ} (hk : h.lookup k = some none)
    (a : Answers) (kd : Option φ) (d : Option δ) (dd : Option φ) :
    ∃ m', m.insertFullOom n (false :: a) k kd d dd = some m' ∧ Merged m' h A := by
  obtain ⟨mem', node, g1, g2⟩ := link_merged r hn
  refine ⟨_, ?_, g2⟩
  have hl : m.lookup n k = some none := by
    rcases lookup_rel r hn hk with ⟨-, hm⟩ | ⟨x, i, p, as1, a, as2, ns1, ns2, nx, e, -⟩
    · exact hm
    · cases e
  unfold insertFullOom
  rw [if_neg h0]
  simp only [hl, Option.bind_eq_bind, Option.bind_some]
  rw [if_pos hf]
  simp [growOom, g1, alloc]

theorem insertFullOom_hangs {m : MHash κ δ φ} {h : AxlHash κ δ φ} {A : List (List Piece)} (r : Merged m h A) (ht : AxlHash.TInv h)
    (h0 : m.hashSize ≠ 0) (hf : m.hashSize = m.items) {x y : HashNode κ δ φ} (hx : x ∈ h.table.flatten) (hy : y ∈ h.table.flatten)
    (hxy : h.hash x.key % h.hashSize ≠ h.hash y.key % h.hashSize) {k : κ} (hk : h.lookup k = some none) (n : Nat) (a : Answers)
    (hn : A.flatten.length ≤ n) (kd : Option φ) (d : Option δ) (dd : Option φ) : m.insertFullOom n a k kd d dd = none := by
  have hl : m.lookup n k = some none := by
    rcases lookup_merged r ht hn hk with ⟨-, hm⟩ | ⟨x, a, nx, e, -⟩
    · exact hm
    · cases e
  unfold insertFullOom
  rw [if_neg h0]
  simp only [hl, Option.bind_eq_bind, Option.bind_some]
  rw [if_pos hf, growOom_hangs r ht hx hy hxy]
  rfl

/-! ### Memory that is given -/

theorem alloc_given {a : Answers} (h : false ∉ a) : (alloc a).1 = true ∧ false ∉ (alloc a).2 := by
  cases a with
  | nil => exact ⟨rfl, h⟩
  | cons b a =>
    rw [List.mem_cons] at h
    refine ⟨?_, fun e => h (.inr e)⟩
    cases b
    · exact absurd (.inl rfl) h
    · rfl

theorem createNodeOom_given {m : MHash κ δ φ} {live sp : List Piece} (hi : Factory.Inv m.factory live sp)
    (hts : m.factory.typeSize = nodeSize) {a : Answers} (ha : false ∉ a) (x : HashNode κ δ φ) :
    m.createNodeOom a x = (m.createNode x).map fun r => (some r.1, r.2) := by
  obtain ⟨p, f, sp', h1, h2, h3⟩ := Factory.get_spec hi
  obtain ⟨cap, c1, c2⟩ := Factory.inv_inside h2 (p := p) (by simp)
  have c1 : f.blocks[p.block]? = some cap := c1
  have c2 : p.offset + nodeSize ≤ cap := by rw [h3, hts] at c2; exact c2
  obtain ⟨a1, a2⟩ := alloc_given ha
  obtain ⟨a3, -⟩ := alloc_given a2
  have hg : m.factory.getOom a = some (some p, f) := by
    unfold Factory.getOom
    split
    · simp [h1]
    · simp only [a1, Bool.true_eq_false, and_false, if_false, h1, Option.bind_eq_bind, Option.bind_some, a3]
      have : ¬ (f.blocks[p.block]? = some 0 ∧ p.offset = 0) := by
        rw [c1]
        rintro ⟨e, -⟩
        cases e
        simp [nodeSize] at c2
      rw [if_neg this]
  simp [createNodeOom, hg, createNode, h1, c1, c2]

theorem storeOom_given {m : MHash κ δ φ} {live sp : List Piece} (hi : Factory.Inv m.factory live sp)
    (hts : m.factory.typeSize = nodeSize) {a : Answers} (ha : false ∉ a) (x : HashNode κ δ φ) :
    m.storeOom a x = (m.createNode x).bind fun r => r.2.insertNode x.key r.1 true := by
  unfold storeOom
  rw [createNodeOom_given hi hts ha]
  cases m.createNode x <;> rfl

theorem insertFullOom_given {m : MHash κ δ φ} {h h' : AxlHash κ δ φ} {A : List (List Piece)} (r : Rel m h A []) {n : Nat}
    (hn : A.flatten.length ≤ n) {a : Answers} (ha : false ∉ a) {k : κ} {kd : Option φ} {d : Option δ} {dd : Option φ}
    (hh : h.insertFull k kd d dd = some h') : m.insertFullOom n a k kd d dd = m.insertFull n k kd d dd := by
  obtain ⟨live, sp, hi, hp⟩ := r.pool
  obtain ⟨a1, a2⟩ := alloc_given ha
  unfold insertFullOom insertFull
  by_cases h0 : m.hashSize = 0
  · simp only [h0, if_true, a1]
    rw [createNodeOom_given (m := { m with table := List.replicate m.step none, hashSize := m.step }) hi r.ts a2]
    cases createNode { m with table := List.replicate m.step none, hashSize := m.step } ⟨k, kd, d, dd⟩ <;> rfl
  · rw [if_neg h0, if_neg h0]
    cases hl : m.lookup n k with
    | none => rfl
    | some res =>
      cases res with
      | some p => rfl
      | none =>
        simp only [Option.bind_eq_bind, Option.bind_some]
        by_cases hg : m.hashSize = m.items
        · rw [if_pos hg, if_pos hg]
          have hgr : ∃ h1, h.grow = some h1 := by
            unfold AxlHash.insertFull at hh
            rw [if_neg (by rw [← r.size]; exact h0)] at hh
            cases hl' : h.lookup k with
            | none => simp [hl'] at hh
            | some res =>
              rcases lookup_rel r hn hl' with ⟨rfl, hm⟩ | ⟨x, i, p, as1, a, as2, ns1, ns2, nx, rfl, -, -, hm, -⟩
              · cases hgr : h.grow with
                | none => simp [hl', ← r.size, ← r.items, hg, hgr] at hh
                | some h1 => exact ⟨h1, rfl⟩
              · rw [hl] at hm; cases hm
          obtain ⟨h1, hgr⟩ := hgr
          obtain ⟨m0, A0, q1, q2⟩ := grow_rel r hn hgr
          have : m.growOom n a = some (true, m0) := by
            unfold growOom
            unfold grow at q1
            cases hlk : link n m m.table none none with
            | none => simp [hlk] at q1
            | some t =>
              obtain ⟨m1, node⟩ := t
              simp only [hlk, Option.bind_eq_bind, Option.bind_some] at q1 ⊢
              simp [a1, q1]
          rw [this, q1]
          obtain ⟨live, sp, hi, hp⟩ := q2.pool
          simp only [Option.bind_some, if_true]
          rw [storeOom_given hi q2.ts a2]
        · rw [if_neg hg, if_neg hg]
          rw [storeOom_given hi r.ts ha]

end MHash

namespace AxlList
variable {α : Type}

theorem execOom_given (l : AxlList α) {a : Answers} (ha : false ∉ a) (op : Seq.Op α) : l.execOom a op = l.exec op := by
  obtain ⟨a1, a2⟩ := MHash.alloc_given ha
  obtain ⟨a3, -⟩ := MHash.alloc_given a2
  have : l.prepare a = (true, l) := by
    unfold prepare
    split
    · rfl
    · simp [a1, a3]
  cases op <;> simp [execOom, exec, addOom, appendOom, prependOom, addAtOom, this]

theorem runOom_given : ∀ (ops : List (Seq.Op α × Answers)) (l : AxlList α), (∀ op ∈ ops, false ∉ op.2) →
    l.runOom ops = l.run (ops.map Prod.fst)
  | [], _, _ => rfl
  | (op, a) :: ops, l, h => by
    simp only [runOom, run, List.map_cons]
    rw [execOom_given l (h (op, a) (List.mem_cons_self ..))]
    cases l.exec op with
    | none => rfl
    | some l => exact runOom_given ops l fun o ho => h o (List.mem_cons_of_mem _ ho)

end AxlList

namespace AxlStack
variable {α : Type}

theorem runOom_given : ∀ (ops : List (Stack.Op α × Answers)) (s : AxlStack α), (∀ op ∈ ops, false ∉ op.2) →
    s.runOom ops = s.run (ops.map Prod.fst)
  | [], _, _ => rfl
  | (.push x, a) :: ops, s, h => by
    obtain ⟨a1, -⟩ := MHash.alloc_given (h (.push x, a) (List.mem_cons_self ..))
    simp only [runOom, run, exec, List.map_cons, pushOom, a1]
    simp only [Bool.true_eq_false, and_false, if_false]
    cases s.push x with
    | none => rfl
    | some s => exact runOom_given ops s fun o ho => h o (List.mem_cons_of_mem _ ho)
  | (.pop, a) :: ops, s, h => by
    simp only [runOom, run, exec, List.map_cons]
    cases s.pop with
    | none => rfl
    | some s => exact runOom_given ops s.2 fun o ho => h o (List.mem_cons_of_mem _ ho)

end AxlStack

namespace BinaryStack

theorem pushOom_given (b : BinaryStack) {a : Answers} (h : false ∉ a) (x : Bool) : b.pushOom a x = b.push x := by
  obtain ⟨a1, -⟩ := MHash.alloc_given h
  have h1 : a[1]? ≠ some false := fun e => h (List.mem_of_getElem? e)
  have h2 := pushCreateOom_eq b x h1
  rw [a1] at h2
  unfold pushOom push
  simp only [h2, if_true]
  rfl

theorem runOom_given : ∀ (ops : List (Stack.BOp × Answers)) (b : BinaryStack), (∀ op ∈ ops, false ∉ op.2) →
    b.runOom ops = b.run (ops.map Prod.fst)
  | [], _, _ => rfl
  | (.push x, a) :: ops, b, h => by
    simp only [runOom, run, exec, List.map_cons]
    rw [pushOom_given b (h (.push x, a) (List.mem_cons_self ..))]
    cases b.push x with
    | none => rfl
    | some b => exact runOom_given ops b fun o ho => h o (List.mem_cons_of_mem _ ho)
  | (.pushTheSame, a) :: ops, b, h => by
    simp only [runOom, run, exec, List.map_cons]
    cases b.pushTheSame with
    | none => rfl
    | some b => exact runOom_given ops b fun o ho => h o (List.mem_cons_of_mem _ ho)
  | (.pop, a) :: ops, b, h => by
    simp only [runOom, run, exec, List.map_cons]
    cases b.pop with
    | none => rfl
    | some b => exact runOom_given ops b.2 fun o ho => h o (List.mem_cons_of_mem _ ho)

end BinaryStack
end Axl
