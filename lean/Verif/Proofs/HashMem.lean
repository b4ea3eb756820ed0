/-
Proofs for C69: the table in memory follows the table with lists.
-/
import Verif.Model.HashMem
import Verif.Proofs.HashRun
import Verif.Proofs.Factory

namespace Axl
variable {κ δ φ : Type}

/-! ## Segments of a chain -/

/-- From `p`, the nodes in these pieces, with this content, lead to `q`. -/
def HSeg (mem : Piece → Option (MNode κ δ φ)) : Option Piece → List Piece → List (HashNode κ δ φ) → Option Piece → Prop
  | p, [], [], q => p = q
  | p, a :: as, n :: ns, q => p = some a ∧ ∃ nx, mem a = some ⟨n, nx⟩ ∧ HSeg mem nx as ns q
  | _, _, _, _ => False

theorem hseg_length {mem : Piece → Option (MNode κ δ φ)} : ∀ {p : Option Piece} {as : List Piece} {ns : List (HashNode κ δ φ)}
    {q : Option Piece}, HSeg mem p as ns q → as.length = ns.length
  | _, [], [], _, _ => rfl
  | _, _ :: _, _ :: _, _, ⟨_, _, _, h⟩ => by simp [hseg_length h]
  | _, [], _ :: _, _, h => h.elim
  | _, _ :: _, [], _, h => h.elim

theorem hseg_frame {mem mem' : Piece → Option (MNode κ δ φ)} : ∀ {p : Option Piece} {as : List Piece} {ns : List (HashNode κ δ φ)}
    {q : Option Piece}, (∀ a ∈ as, mem' a = mem a) → HSeg mem p as ns q → HSeg mem' p as ns q
  | _, [], [], _, _, h => h
  | _, a :: as, _ :: _, _, hm, ⟨h1, nx, h2, h3⟩ =>
    ⟨h1, nx, by rw [hm a (List.mem_cons_self ..)]; exact h2, hseg_frame (fun b hb => hm b (List.mem_cons_of_mem _ hb)) h3⟩
  | _, [], _ :: _, _, _, h => h.elim
  | _, _ :: _, [], _, _, h => h.elim

theorem hseg_append {mem : Piece → Option (MNode κ δ φ)} : ∀ {p : Option Piece} {as bs : List Piece}
    {ns ms : List (HashNode κ δ φ)} {q : Option Piece}, as.length = ns.length →
    (HSeg mem p (as ++ bs) (ns ++ ms) q ↔ ∃ r, HSeg mem p as ns r ∧ HSeg mem r bs ms q)
  | p, [], bs, [], ms, q, _ => by
    constructor
    · intro h; exact ⟨p, rfl, h⟩
    · rintro ⟨r, rfl, h⟩; exact h
  | p, a :: as, bs, n :: ns, ms, q, hl => by
    have hl : as.length = ns.length := by simpa using hl
    constructor
    · rintro ⟨h1, nx, h2, h3⟩
      obtain ⟨r, g1, g2⟩ := (hseg_append hl).1 h3
      exact ⟨r, ⟨h1, nx, h2, g1⟩, g2⟩
    · rintro ⟨r, ⟨h1, nx, h2, h3⟩, g⟩
      exact ⟨h1, nx, h2, (hseg_append hl).2 ⟨r, h3, g⟩⟩
  | _, [], _, _ :: _, _, _, hl => by cases hl
  | _, _ :: _, _, [], _, _, hl => by cases hl

theorem hseg_head {mem : Piece → Option (MNode κ δ φ)} {p : Option Piece} {as : List Piece} {ns : List (HashNode κ δ φ)}
    (h : HSeg mem p as ns none) : p = as.head? := by
  cases as with
  | nil => cases ns with
    | nil => exact h
    | cons => exact h.elim
  | cons a as => cases ns with
    | nil => exact h.elim
    | cons n ns => exact h.1

theorem hseg_nil {mem : Piece → Option (MNode κ δ φ)} {as : List Piece} {ns : List (HashNode κ δ φ)}
    (h : HSeg mem none as ns none) : as = [] ∧ ns = [] := by
  cases as with
  | nil => cases ns with
    | nil => exact ⟨rfl, rfl⟩
    | cons => exact h.elim
  | cons a as => cases ns with
    | nil => exact h.elim
    | cons n ns => cases h.1

theorem hseg_cons {mem : Piece → Option (MNode κ δ φ)} {p : Piece} {as : List Piece} {ns : List (HashNode κ δ φ)}
    (h : HSeg mem (some p) as ns none) : ∃ as' n ns' nx, as = p :: as' ∧ ns = n :: ns' ∧ mem p = some ⟨n, nx⟩ ∧
      HSeg mem nx as' ns' none := by
  cases as with
  | nil => cases ns with
    | nil => cases h
    | cons => exact h.elim
  | cons a as => cases ns with
    | nil => exact h.elim
    | cons n ns =>
      obtain ⟨h1, nx, h2, h3⟩ := h
      cases h1
      exact ⟨as, n, ns, nx, rfl, rfl, h2, h3⟩

/-- The cells where the content is. -/
theorem hseg_split {mem : Piece → Option (MNode κ δ φ)} {p q : Option Piece} {as : List Piece} {ns1 ns2 : List (HashNode κ δ φ)}
    {x : HashNode κ δ φ} (h : HSeg mem p as (ns1 ++ x :: ns2) q) : ∃ as1 a as2 nx, as = as1 ++ a :: as2 ∧ as1.length = ns1.length ∧
      HSeg mem p as1 ns1 (some a) ∧ mem a = some ⟨x, nx⟩ ∧ HSeg mem nx as2 ns2 q := by
  induction ns1 generalizing p as with
  | nil =>
    cases as with
    | nil => exact h.elim
    | cons a as =>
      obtain ⟨h1, nx, h2, h3⟩ := h
      exact ⟨[], a, as, nx, rfl, rfl, h1, h2, h3⟩
  | cons n ns1 ih =>
    cases as with
    | nil => exact h.elim
    | cons b as =>
      obtain ⟨h1, nx, h2, h3⟩ := h
      obtain ⟨as1, a, as2, nx', rfl, g1, g2, g3, g4⟩ := ih h3
      exact ⟨b :: as1, a, as2, nx', rfl, by simp [g1], ⟨h1, nx, h2, g2⟩, g3, g4⟩

/-- The last cell of a segment can lead somewhere else. -/
theorem hseg_retarget {mem mem' : Piece → Option (MNode κ δ φ)} {as1 : List Piece} {a : Piece} {ns1 : List (HashNode κ δ φ)}
    {x : HashNode κ δ φ} {p r r' : Option Piece} (hl : as1.length = ns1.length)
    (h : HSeg mem p (as1 ++ [a]) (ns1 ++ [x]) r) (hf : ∀ b ∈ as1, mem' b = mem b)
    (ha : ∀ nx, mem a = some ⟨x, nx⟩ → mem' a = some ⟨x, r'⟩) : HSeg mem' p (as1 ++ [a]) (ns1 ++ [x]) r' := by
  obtain ⟨s, h1, h2, nx, h3, h4⟩ := (hseg_append hl).1 h
  exact (hseg_append hl).2 ⟨s, hseg_frame hf h1, h2, r', ha nx h3, rfl⟩

/-! ## Walks -/

namespace MHash

theorem find_split (equal : κ → κ → Bool) (k : κ) : ∀ (ns : List (HashNode κ δ φ)),
    (AxlHash.lookupChain equal k ns = none ∧ AxlHash.unlinkChain equal k ns = none ∧ ∀ y ∈ ns, equal y.key k = false) ∨
    ∃ ns1 x ns2, ns = ns1 ++ x :: ns2 ∧ (∀ y ∈ ns1, equal y.key k = false) ∧ equal x.key k = true ∧
      AxlHash.lookupChain equal k ns = some x ∧ AxlHash.unlinkChain equal k ns = some (x, ns1 ++ ns2) ∧
      ∀ new, AxlHash.replaceChain equal k new ns = ns1 ++ new :: ns2
  | [] => .inl ⟨rfl, rfl, by simp⟩
  | n :: ns => by
    cases hn : equal n.key k with
    | true =>
      refine .inr ⟨[], n, ns, rfl, by simp, hn, ?_, ?_, fun new => ?_⟩
      · simp [AxlHash.lookupChain, hn]
      · simp [AxlHash.unlinkChain, hn]
      · simp [AxlHash.replaceChain, hn]
    | false =>
      rcases find_split equal k ns with ⟨h1, h2, h3⟩ | ⟨ns1, x, ns2, rfl, h1, h2, h3, h4, h5⟩
      · refine .inl ⟨?_, ?_, ?_⟩
        · simp [AxlHash.lookupChain, hn, h1]
        · simp [AxlHash.unlinkChain, hn, h2]
        · intro y hy
          cases hy with
          | head => exact hn
          | tail _ hy => exact h3 y hy
      · refine .inr ⟨n :: ns1, x, ns2, rfl, ?_, h2, ?_, ?_, fun new => ?_⟩
        · intro y hy
          cases hy with
          | head => exact hn
          | tail _ hy => exact h1 y hy
        · simp [AxlHash.lookupChain, hn, h3]
        · simp [AxlHash.unlinkChain, hn, h4]
        · simp [AxlHash.replaceChain, hn, h5]

theorem lookupFrom_none {m : MHash κ δ φ} {k : κ} : ∀ {n : Nat} {p : Piece} {as : List Piece} {ns : List (HashNode κ δ φ)},
    HSeg m.mem (some p) as ns none → as.length ≤ n → (∀ y ∈ ns, m.equal y.key k = false) → m.lookupFrom k n p = some none
  | 0, p, as, ns, h, hn, _ => by
    obtain ⟨as', x, ns', nx, rfl, -⟩ := hseg_cons h
    simp at hn
  | n + 1, p, as, ns, h, hn, hall => by
    obtain ⟨as', x, ns', nx, rfl, rfl, hc, hs⟩ := hseg_cons h
    unfold lookupFrom
    simp only [hc, Option.bind_eq_bind, Option.bind_some, hall x (List.mem_cons_self ..), Bool.false_eq_true, if_false]
    cases nx with
    | none => rfl
    | some q => exact lookupFrom_none hs (by simpa using hn) (fun y hy => hall y (List.mem_cons_of_mem _ hy))

theorem lookupFrom_some {m : MHash κ δ φ} {k : κ} {a : Piece} {x : HashNode κ δ φ} {nx : Option Piece}
    (hc : m.mem a = some ⟨x, nx⟩) (he : m.equal x.key k = true) : ∀ {n : Nat} {p : Piece} {as : List Piece}
    {ns : List (HashNode κ δ φ)}, HSeg m.mem (some p) as ns (some a) → as.length < n → (∀ y ∈ ns, m.equal y.key k = false) →
    m.lookupFrom k n p = some (some a)
  | 0, _, _, _, _, hn, _ => by cases hn
  | n + 1, p, as, ns, h, hn, hall => by
    unfold lookupFrom
    cases as with
    | nil =>
      cases ns with
      | cons => exact h.elim
      | nil =>
        have h : some p = some a := h
        cases h
        simp only [hc, Option.bind_eq_bind, Option.bind_some, he, if_true]
    | cons b as =>
      cases ns with
      | nil => exact h.elim
      | cons y ns =>
        obtain ⟨h1, nx', h2, h3⟩ := h
        cases h1
        simp only [h2, Option.bind_eq_bind, Option.bind_some, hall y (List.mem_cons_self ..), Bool.false_eq_true, if_false]
        cases nx' with
        | none =>
          cases as with
          | nil => cases ns with
            | nil => cases h3
            | cons => exact h3.elim
          | cons c as => cases ns with
            | nil => exact h3.elim
            | cons => cases h3.1
        | some q => exact lookupFrom_some hc he h3 (by simpa using hn) (fun y hy => hall y (List.mem_cons_of_mem _ hy))

/-! ## The table -/

/-- Every slot has its chain. -/
def Chains (mem : Piece → Option (MNode κ δ φ)) (T : List (Option Piece)) (A : List (List Piece)) (H : List (List (HashNode κ δ φ))) :
    Prop :=
  ∀ (i : Nat) p as ns, T[i]? = some p → A[i]? = some as → H[i]? = some ns → HSeg mem p as ns none

/-- The table in memory is the table with lists: `A` are the pieces of each slot, `X` those in use that are in no slot. -/
structure Rel (m : MHash κ δ φ) (h : AxlHash κ δ φ) (A : List (List Piece)) (X : List Piece) : Prop where
  hash : m.hash = h.hash
  equal : m.equal = h.equal
  items : m.items = h.items
  size : m.hashSize = h.hashSize
  step : m.step = h.step
  log : m.log = h.log
  ts : m.factory.typeSize = nodeSize
  lenT : m.table.length = h.table.length
  lenA : A.length = h.table.length
  chains : Chains m.mem m.table A h.table
  pool : ∃ live sp, Factory.Inv m.factory live sp ∧ live.Perm (X ++ A.flatten)

theorem Rel.nodup {m : MHash κ δ φ} {h : AxlHash κ δ φ} {A : List (List Piece)} {X : List Piece} (r : Rel m h A X) :
    (X ++ A.flatten).Nodup := by
  obtain ⟨live, sp, h1, h2⟩ := r.pool
  exact h2.nodup_iff.1 (List.nodup_append.1 h1.nodup).1

theorem get_of_length {α β : Type} {l : List α} {l' : List β} (h : l.length = l'.length) {i : Nat} {b : β} (hb : l'[i]? = some b) :
    ∃ a, l[i]? = some a :=
  ⟨_, List.getElem?_eq_getElem (by rw [h]; exact (List.getElem?_eq_some_iff.1 hb).1)⟩

/-- A slot. -/
theorem Rel.slot {m : MHash κ δ φ} {h : AxlHash κ δ φ} {A : List (List Piece)} {X : List Piece} (r : Rel m h A X) {i : Nat}
    {ns : List (HashNode κ δ φ)} (hi : h.table[i]? = some ns) :
    ∃ p as, m.table[i]? = some p ∧ A[i]? = some as ∧ HSeg m.mem p as ns none := by
  obtain ⟨p, hp⟩ := get_of_length r.lenT hi
  obtain ⟨as, ha⟩ := get_of_length r.lenA hi
  exact ⟨p, as, hp, ha, r.chains i p as ns hp ha hi⟩

theorem hseg_lengths : ∀ {A : List (List Piece)} {B : List (List (HashNode κ δ φ))}, A.length = B.length →
    (∀ (i : Nat) as ns, A[i]? = some as → B[i]? = some ns → as.length = ns.length) → A.flatten.length = B.flatten.length
  | [], [], _, _ => rfl
  | [], _ :: _, h, _ => by cases h
  | _ :: _, [], h, _ => by cases h
  | as :: A, ns :: B, h, hall => by
    rw [List.flatten_cons, List.flatten_cons, List.length_append, List.length_append, hall 0 as ns rfl rfl,
      hseg_lengths (by simpa using h) fun i as ns h1 h2 => hall (i + 1) as ns (by simpa using h1) (by simpa using h2)]

theorem Rel.count {m : MHash κ δ φ} {h : AxlHash κ δ φ} {A : List (List Piece)} {X : List Piece} (r : Rel m h A X) :
    A.flatten.length = h.table.flatten.length := by
  refine hseg_lengths r.lenA fun i as ns h1 h2 => ?_
  obtain ⟨p, hp⟩ := get_of_length r.lenT h2
  exact hseg_length (r.chains i p as ns hp h1 h2)

theorem slot_le {α : Type} {A : List (List α)} {i : Nat} {as : List α} (h : A[i]? = some as) : as.length ≤ A.flatten.length := by
  have := List.mem_of_getElem? h
  exact (List.sublist_flatten_of_mem this).length_le

/-- The pieces of two slots. -/
theorem slots_apart : ∀ {A : List (List Piece)}, A.flatten.Nodup → ∀ {i j : Nat} {as bs : List Piece}, A[i]? = some as →
    A[j]? = some bs → i ≠ j → ∀ a ∈ as, a ∉ bs := by
  intro A hn i j as bs h1 h2 hij a ha hb
  have h := (List.pairwise_flatten.1 hn).2
  rw [List.pairwise_iff_getElem] at h
  obtain ⟨l1, e1⟩ := List.getElem?_eq_some_iff.1 h1
  obtain ⟨l2, e2⟩ := List.getElem?_eq_some_iff.1 h2
  rcases Nat.lt_or_ge i j with hlt | hge
  · have := h i j l1 l2 hlt
    rw [e1, e2] at this
    exact this a ha a hb rfl
  · have := h j i l2 l1 (by omega)
    rw [e1, e2] at this
    exact this a hb a ha rfl

theorem chains_set {mem mem' : Piece → Option (MNode κ δ φ)} {T : List (Option Piece)} {A : List (List Piece)}
    {H : List (List (HashNode κ δ φ))} (hc : Chains mem T A H) {i : Nat}
    (hf : ∀ (j : Nat) bs, j ≠ i → A[j]? = some bs → ∀ b ∈ bs, mem' b = mem b) {p : Option Piece} {as : List Piece}
    {ns : List (HashNode κ δ φ)} (hs : HSeg mem' p as ns none) : Chains mem' (T.set i p) (A.set i as) (H.set i ns) := by
  intro j p' as' ns' h1 h2 h3
  by_cases hj : i = j
  · subst hj
    rw [List.getElem?_set_self' ] at h1 h2 h3
    cases hT : T[i]? with
    | none => rw [hT] at h1; cases h1
    | some _ =>
    cases hA : A[i]? with
    | none => rw [hA] at h2; cases h2
    | some _ =>
    cases hH : H[i]? with
    | none => rw [hH] at h3; cases h3
    | some _ =>
    rw [hT] at h1; rw [hA] at h2; rw [hH] at h3
    cases h1; cases h2; cases h3
    exact hs
  · rw [List.getElem?_set_ne hj] at h1 h2 h3
    exact hseg_frame (hf j as' (fun h => hj h.symm) h2) (hc j p' as' ns' h1 h2 h3)

@[simp] theorem write_mem (m : MHash κ δ φ) (p : Piece) (c : Option (MNode κ δ φ)) : (m.write p c).mem p = c := by simp [write]

theorem write_ne (m : MHash κ δ φ) {p q : Piece} (c : Option (MNode κ δ φ)) (h : q ≠ p) : (m.write p c).mem q = m.mem q := by
  simp [write, h]

theorem createNode_rel {m : MHash κ δ φ} {h : AxlHash κ δ φ} {A : List (List Piece)} {X : List Piece} (r : Rel m h A X)
    (x : HashNode κ δ φ) : ∃ p m', m.createNode x = some (p, m') ∧ Rel m' h A (p :: X) ∧ m'.mem p = some ⟨x, m.junk p⟩ := by
  obtain ⟨live, sp, hi, hp⟩ := r.pool
  obtain ⟨p, f, sp', h1, h2, h3⟩ := Factory.get_spec hi
  refine ⟨p, { m with factory := f }.write p (some ⟨x, m.junk p⟩), by simp [createNode, h1], ?_, by simp⟩
  have hpm : (live ++ [p]).Perm (p :: X ++ A.flatten) :=
    List.perm_append_comm.trans (by simpa using hp)
  have hnp : p ∉ X ++ A.flatten := by
    have := hpm.nodup_iff.1 (List.nodup_append.1 h2.nodup).1
    exact (List.nodup_cons.1 this).1
  refine ⟨r.hash, r.equal, r.items, r.size, r.step, r.log, h3.trans r.ts, r.lenT, r.lenA, ?_, live ++ [p], sp', h2, hpm⟩
  intro i q as ns g1 g2 g3
  refine hseg_frame (fun a ha => write_ne _ _ ?_) (r.chains i q as ns g1 g2 g3)
  rintro rfl
  exact hnp (List.mem_append_right _ (List.mem_flatten.2 ⟨as, List.mem_of_getElem? g2, ha⟩))

theorem insertNode_rel {m : MHash κ δ φ} {h h' : AxlHash κ δ φ} {A : List (List Piece)} {X : List Piece} {p : Piece}
    (r : Rel m h A (p :: X)) {x : HashNode κ δ φ} {nx : Option Piece} (hx : m.mem p = some ⟨x, nx⟩) {k : κ} {inc : Bool}
    (hh : h.insertNode k x inc = some h') :
    ∃ m' A', m.insertNode k p inc = some m' ∧ Rel m' h' A' X ∧ ∀ q, q ≠ p → m'.mem q = m.mem q := by
  unfold AxlHash.insertNode at hh
  cases hpos : h.pos k with
  | none => simp [hpos] at hh
  | some i =>
  cases hch : h.table[i]? with
  | none => simp [hpos, hch] at hh
  | some ns =>
  simp only [hpos, hch, Option.bind_eq_bind, Option.bind_some, Option.some.injEq] at hh
  subst hh
  obtain ⟨old, as, ht, ha, hs⟩ := r.slot hch
  have hpos' : m.pos k = some i := by
    unfold pos; unfold AxlHash.pos at hpos
    rw [r.size, r.hash]; exact hpos
  have hnd := r.nodup
  have hnp : ∀ (j : Nat) bs, A[j]? = some bs → p ∉ bs := fun j bs hb hp =>
    (List.nodup_cons.1 hnd).1 (List.mem_append_right _ (List.mem_flatten.2 ⟨bs, List.mem_of_getElem? hb, hp⟩))
  refine ⟨{ m.write p (some ⟨x, old⟩) with table := m.table.set i (some p), items := if inc then m.items + 1 else m.items },
    A.set i (p :: as), ?_, ?_, ?_⟩
  · simp [insertNode, hpos', ht, setNext, hx, write]
  · refine ⟨r.hash, r.equal, ?_, r.size, r.step, r.log, r.ts, ?_, ?_, ?_, ?_⟩
    · show (if inc then m.items + 1 else m.items) = if inc then h.items + 1 else h.items
      rw [r.items]
    · simp [r.lenT]
    · simp [r.lenA]
    · refine chains_set (mem := m.mem) r.chains ?_ ?_
      · intro j bs hj hb b hbb
        exact write_ne _ _ (fun e => hnp j bs hb (e ▸ hbb))
      · refine ⟨rfl, old, write_mem _ _ _, hseg_frame (fun b hb => write_ne _ _ ?_) hs⟩
        rintro rfl
        exact hnp i as ha hb
    · obtain ⟨live, sp, hi, hp⟩ := r.pool
      refine ⟨live, sp, hi, hp.trans ?_⟩
      have := AxlHash.perm_set_flatten A i as (p :: as) [p] ha (List.Perm.refl _)
      refine List.Perm.trans ?_ (List.Perm.append_left X this.symm)
      simp only [List.cons_append, List.nil_append]
      exact List.perm_middle.symm
  · intro q hq
    exact write_ne _ _ hq

theorem rehash_rel : ∀ {ns : List (HashNode κ δ φ)} {n : Nat} {m : MHash κ δ φ} {h h' : AxlHash κ δ φ} {A : List (List Piece)}
    {as : List Piece} {node : Option Piece}, Rel m h A as → HSeg m.mem node as ns none → as.length ≤ n → h.rehash ns = some h' →
    ∃ m' A', rehash n m node = some m' ∧ Rel m' h' A' []
  | [], n, m, h, h', A, as, node, r, hs, hn, hh => by
    cases as with
    | cons => exact hs.elim
    | nil =>
      have hs : node = none := hs
      subst hs
      simp only [AxlHash.rehash, Option.some.injEq] at hh
      subst hh
      exact ⟨m, A, by cases n <;> rfl, r⟩
  | x :: ns, n, m, h, h', A, as, node, r, hs, hn, hh => by
    cases as with
    | nil => exact hs.elim
    | cons p as =>
      obtain ⟨rfl, nx, h1, h2⟩ := hs
      cases n with
      | zero => cases hn
      | succ n =>
        unfold AxlHash.rehash at hh
        cases hi : h.insertNode x.key x false with
        | none => simp [hi] at hh
        | some h1' =>
          simp only [hi, Option.bind_eq_bind, Option.bind_some] at hh
          obtain ⟨m1, A1, g1, g2, g3⟩ := insertNode_rel r h1 hi
          have hnp : p ∉ as := fun hp => (List.nodup_cons.1 r.nodup).1 (List.mem_append_left _ hp)
          obtain ⟨m', A', e1, e2⟩ := rehash_rel g2 (hseg_frame (fun a ha => g3 a (fun e => hnp (e ▸ ha))) h2)
            (by simpa using hn) hh
          refine ⟨m', A', ?_, e2⟩
          unfold rehash
          simp [h1, g1, e1]

theorem lastOf_seg {m : MHash κ δ φ} : ∀ {ns : List (HashNode κ δ φ)} {x : HashNode κ δ φ} {n : Nat} {p a : Piece}
    {as : List Piece}, as.length = ns.length → HSeg m.mem (some p) (as ++ [a]) (ns ++ [x]) none → as.length < n →
    m.lastOf n p = some a
  | [], x, n, p, a, as, hl, hs, hn => by
    cases as with
    | cons => cases hl
    | nil =>
      cases n with
      | zero => cases hn
      | succ n =>
        obtain ⟨h1, nx, h2, h3⟩ := hs
        cases h1
        have h3 : nx = none := h3
        subst h3
        simp [lastOf, h2]
  | y :: ns, x, n, p, a, as, hl, hs, hn => by
    cases as with
    | nil => cases hl
    | cons b as =>
      cases n with
      | zero => cases hn
      | succ n =>
        obtain ⟨h1, nx, h2, h3⟩ := hs
        cases h1
        have hl : as.length = ns.length := by simpa using hl
        cases nx with
        | none =>
          have := hseg_head h3
          cases as <;> cases this
        | some q =>
          have := lastOf_seg hl h3 (by simpa using hn)
          simp [lastOf, h2, this]

theorem chains_tail {mem : Piece → Option (MNode κ δ φ)} {t : Option Piece} {T : List (Option Piece)} {as : List Piece}
    {A : List (List Piece)} {ns : List (HashNode κ δ φ)} {H : List (List (HashNode κ δ φ))} (h : Chains mem (t :: T) (as :: A) (ns :: H)) :
    Chains mem T A H := fun i p as' ns' h1 h2 h3 => h (i + 1) p as' ns' (by simpa using h1) (by simpa using h2) (by simpa using h3)

theorem chains_frame {mem mem' : Piece → Option (MNode κ δ φ)} {T : List (Option Piece)} {A : List (List Piece)}
    {H : List (List (HashNode κ δ φ))} (h : Chains mem T A H) (hf : ∀ a ∈ A.flatten, mem' a = mem a) : Chains mem' T A H :=
  fun i p as ns h1 h2 h3 => hseg_frame (fun a ha => hf a (List.mem_flatten.2 ⟨as, List.mem_of_getElem? h2, ha⟩)) (h i p as ns h1 h2 h3)

theorem last_split {α β : Type} {as : List α} {ns : List β} (hl : as.length = ns.length) (hne : as ≠ []) :
    ∃ as' a ns' n, as = as' ++ [a] ∧ ns = ns' ++ [n] ∧ as'.length = ns'.length := by
  have hne' : ns ≠ [] := by rintro rfl; exact hne (List.eq_nil_of_length_eq_zero hl)
  refine ⟨as.dropLast, as.getLast hne, ns.dropLast, ns.getLast hne', (List.dropLast_concat_getLast hne).symm,
    (List.dropLast_concat_getLast hne').symm, by simp [hl]⟩

theorem link_seg {n : Nat} : ∀ {ts : List (Option Piece)} {As : List (List Piece)} {Ns : List (List (HashNode κ δ φ))}
    {m : MHash κ δ φ} {sA : List Piece} {sN : List (HashNode κ δ φ)} {node aux : Option Piece},
    ts.length = As.length → ts.length = Ns.length → Chains m.mem ts As Ns → (sA ++ As.flatten).Nodup →
    HSeg m.mem node sA sN none → (sA ≠ [] → aux = sA.getLast?) → sA.length + As.flatten.length ≤ n →
    ∃ mem' node', link n m ts node aux = some ({ m with mem := mem' }, node') ∧
      HSeg mem' node' (sA ++ As.flatten) (sN ++ Ns.flatten) none
  | [], [], [], m, sA, sN, node, aux, _, _, _, _, hs, _, _ => ⟨m.mem, node, rfl, by simpa using hs⟩
  | [], _ :: _, _, _, _, _, _, _, h, _, _, _, _, _, _ => by cases h
  | [], [], _ :: _, _, _, _, _, _, _, h, _, _, _, _, _ => by cases h
  | _ :: _, [], _, _, _, _, _, _, h, _, _, _, _, _, _ => by cases h
  | _ :: _, _ :: _, [], _, _, _, _, _, _, h, _, _, _, _, _ => by cases h
  | none :: ts, as :: As, ns :: Ns, m, sA, sN, node, aux, hl1, hl2, hc, hn, hs, ha, hlen => by
    obtain ⟨rfl, rfl⟩ := hseg_nil (hc 0 none as ns rfl rfl rfl)
    obtain ⟨mem', node', g1, g2⟩ := link_seg (n := n) (ts := ts) (As := As) (Ns := Ns) (m := m) (sA := sA) (sN := sN)
      (node := node) (aux := aux) (by simpa using hl1) (by simpa using hl2) (chains_tail hc) (by simpa using hn) hs ha
      (by simpa using hlen)
    exact ⟨mem', node', by simp [link, g1], by simpa using g2⟩
  | some q :: ts, as :: As, ns :: Ns, m, sA, sN, node, aux, hl1, hl2, hc, hn, hs, ha, hlen => by
    have hq := hc 0 (some q) as ns rfl rfl rfl
    have hql := hseg_length hq
    have hne : as ≠ [] := by
      rintro rfl
      cases ns with
      | nil => cases hq
      | cons => exact hq.elim
    simp only [List.flatten_cons, List.length_append] at hlen
    cases node with
    | none =>
      obtain ⟨rfl, rfl⟩ := hseg_nil hs
      obtain ⟨as', a, ns', x, e1, e2, e3⟩ := last_split hql hne
      have hlast : m.lastOf n q = some a := by
        rw [e1, e2] at hq
        refine lastOf_seg e3 hq ?_
        rw [e1] at hlen
        simp at hlen
        omega
      obtain ⟨mem', node', g1, g2⟩ := link_seg (n := n) (ts := ts) (As := As) (Ns := Ns) (m := m) (sA := as) (sN := ns)
        (node := some q) (aux := some a) (by simpa using hl1) (by simpa using hl2) (chains_tail hc) (by simpa using hn) hq
        (fun _ => by rw [e1]; simp) (by simp only [List.length_nil, Nat.zero_add] at hlen; omega)
      exact ⟨mem', node', by simp [link, hlast, g1], by simpa using g2⟩
    | some p =>
      have hsne : sA ≠ [] := by
        rintro rfl
        cases sN with
        | nil => cases hs
        | cons => exact hs.elim
      obtain ⟨sA', a, sN', x, e1, e2, e3⟩ := last_split (hseg_length hs) hsne
      have haux : aux = some a := by rw [ha hsne, e1]; simp
      subst haux
      rw [e1, e2] at hs
      -- the last node seen
      obtain ⟨r, s1, s2, nx, s3, s4⟩ := (hseg_append e3).1 hs
      have hset : m.setNext a (some q) = some (m.write a (some ⟨x, some q⟩)) := by simp [setNext, s3]
      have hna : a ∉ sA' ∧ a ∉ as ∧ a ∉ As.flatten := by
        rw [e1] at hn
        simp only [List.flatten_cons, List.append_assoc, List.singleton_append] at hn
        have h := List.nodup_append.1 hn
        have h2 := List.nodup_cons.1 h.2.1
        exact ⟨fun hm => h.2.2 a hm a (List.mem_cons_self ..) rfl, fun hm => h2.1 (List.mem_append_left _ hm),
          fun hm => h2.1 (List.mem_append_right _ hm)⟩
      have hseg1 : HSeg (m.write a (some ⟨x, some q⟩)).mem (some p) (sA' ++ [a]) (sN' ++ [x]) (some q) :=
        hseg_retarget e3 hs (fun b hb => write_ne _ _ (fun e => hna.1 (e ▸ hb))) (fun _ _ => write_mem _ _ _)
      have hq' : HSeg (m.write a (some ⟨x, some q⟩)).mem (some q) as ns none :=
        hseg_frame (fun b hb => write_ne _ _ (fun e => hna.2.1 (e ▸ hb))) hq
      have hall : HSeg (m.write a (some ⟨x, some q⟩)).mem (some p) (sA ++ as) (sN ++ ns) none := by
        rw [e1, e2]
        exact (hseg_append (by simp [e3])).2 ⟨_, hseg1, hq'⟩
      -- the new last one
      obtain ⟨as', b, ns', y, f1, f2, f3⟩ := last_split hql hne
      have hlast : (m.write a (some ⟨x, some q⟩)).lastOf n a = some b := by
        refine lastOf_seg (as := a :: as') (ns := x :: ns') (x := y) (by simp [f3]) ?_ ?_
        · rw [List.cons_append, List.cons_append, ← f1, ← f2]
          exact ⟨rfl, some q, write_mem _ _ _, hq'⟩
        · have := congrArg List.length f1
          have h2 := congrArg List.length e1
          simp only [List.length_append, List.length_cons, List.length_nil] at *
          omega
      obtain ⟨mem', node', g1, g2⟩ := link_seg (n := n) (ts := ts) (As := As) (Ns := Ns) (m := m.write a (some ⟨x, some q⟩))
        (sA := sA ++ as) (sN := sN ++ ns) (node := some p) (aux := some b) (by simpa using hl1) (by simpa using hl2)
        (chains_frame (chains_tail hc) fun c hc' => write_ne _ _ (fun e => hna.2.2 (e ▸ hc')))
        (by simpa using hn) hall (fun _ => by rw [f1]; simp) (by simp only [List.length_append]; omega)
      refine ⟨mem', node', ?_, by simpa using g2⟩
      rw [link]
      simp only [hset, hlast, Option.bind_eq_bind, Option.bind_some]
      rw [g1]
      rfl

theorem grow_rel {m : MHash κ δ φ} {h h' : AxlHash κ δ φ} {A : List (List Piece)} (r : Rel m h A []) {n : Nat}
    (hn : A.flatten.length ≤ n) (hh : h.grow = some h') : ∃ m' A', m.grow n = some m' ∧ Rel m' h' A' [] := by
  obtain ⟨mem', node, g1, g2⟩ := link_seg (n := n) (m := m) (sA := []) (sN := []) (node := none) (aux := none)
    (by rw [r.lenT, r.lenA]) r.lenT r.chains (by simpa using r.nodup) rfl (by simp) (by simpa using hn)
  simp only [List.nil_append] at g2
  unfold AxlHash.grow at hh
  obtain ⟨live, sp, hi, hp⟩ := r.pool
  have r' : Rel { m with mem := mem', hashSize := m.hashSize + m.step, table := List.replicate (m.hashSize + m.step) none }
      { h with hashSize := h.hashSize + h.step, table := List.replicate (h.hashSize + h.step) [] }
      (List.replicate (h.hashSize + h.step) []) A.flatten := by
    refine ⟨r.hash, r.equal, r.items, ?_, r.step, r.log, r.ts, ?_, ?_, ?_, live, sp, hi, ?_⟩
    · show m.hashSize + m.step = h.hashSize + h.step; rw [r.size, r.step]
    · simp [r.size, r.step]
    · simp
    · intro i p as ns h1 h2 h3
      have h1 := List.mem_of_getElem? h1
      have h2 := List.mem_of_getElem? h2
      have h3 := List.mem_of_getElem? h3
      rw [List.mem_replicate] at h1 h2 h3
      rw [h1.2, h2.2, h3.2]
      rfl
    · have : (List.replicate (h.hashSize + h.step) ([] : List Piece)).flatten = [] := by simp
      rw [this, List.append_nil]
      simpa using hp
  obtain ⟨m', A', e1, e2⟩ := rehash_rel r' g2 hn hh
  exact ⟨m', A', by simp [grow, g1, e1], e2⟩

/-- What a lookup finds. -/
theorem lookup_rel {m : MHash κ δ φ} {h : AxlHash κ δ φ} {A : List (List Piece)} {X : List Piece} (r : Rel m h A X) {n : Nat}
    (hn : A.flatten.length ≤ n) {k : κ} {res : Option (HashNode κ δ φ)} (hh : h.lookup k = some res) :
    (res = none ∧ m.lookup n k = some none) ∨
    ∃ x i p as1 a as2 ns1 ns2 nx, res = some x ∧ h.hashSize ≠ 0 ∧ h.pos k = some i ∧ m.lookup n k = some (some a) ∧
      m.table[i]? = some p ∧ A[i]? = some (as1 ++ a :: as2) ∧ h.table[i]? = some (ns1 ++ x :: ns2) ∧ as1.length = ns1.length ∧
      HSeg m.mem p as1 ns1 (some a) ∧ m.mem a = some ⟨x, nx⟩ ∧ HSeg m.mem nx as2 ns2 none ∧
      AxlHash.unlinkChain h.equal k (ns1 ++ x :: ns2) = some (x, ns1 ++ ns2) ∧
      (∀ y ∈ ns1, h.equal y.key k = false) ∧ h.equal x.key k = true ∧
      ∀ new, AxlHash.replaceChain h.equal k new (ns1 ++ x :: ns2) = ns1 ++ new :: ns2 := by
  unfold AxlHash.lookup at hh
  split at hh
  · next h0 =>
    cases hh
    exact .inl ⟨rfl, by simp [lookup, r.size, h0]⟩
  · next h0 =>
    cases hpos : h.pos k with
    | none => simp [hpos] at hh
    | some i =>
    cases hch : h.table[i]? with
    | none => simp [hpos, hch] at hh
    | some ns =>
    simp only [hpos, hch, Option.bind_eq_bind, Option.bind_some, Option.some.injEq] at hh
    obtain ⟨p, as, ht, ha, hs⟩ := r.slot hch
    have hpos' : m.pos k = some i := by
      unfold pos; unfold AxlHash.pos at hpos
      rw [r.size, r.hash]; exact hpos
    have hle := slot_le ha
    have hm : ∀ p', m.table[i]? = some p' → m.lookup n k = match p' with | none => some none | some p => m.lookupFrom k n p := by
      intro p' hp'
      have : m.hashSize ≠ 0 := by rw [r.size]; exact h0
      simp [lookup, this, hpos', hp']
      rfl
    rcases find_split h.equal k ns with ⟨e1, e2, e3⟩ | ⟨ns1, x, ns2, rfl, e1, e2, e3, e4, e5⟩
    · rw [e1] at hh
      refine .inl ⟨hh.symm, ?_⟩
      rw [hm p ht]
      cases p with
      | none => rfl
      | some p => exact lookupFrom_none hs (by omega) (by rw [r.equal]; exact e3)
    · rw [e3] at hh
      obtain ⟨as1, a, as2, nx, rfl, g1, g2, g3, g4⟩ := hseg_split hs
      refine .inr ⟨x, i, p, as1, a, as2, ns1, ns2, nx, hh.symm, h0, rfl, ?_, ht, ha, hch, g1, g2, g3, g4, e4, e1, e2, e5⟩
      rw [hm p ht]
      cases p with
      | none =>
        have := hseg_head hs
        cases as1 <;> cases this
      | some p =>
        refine lookupFrom_some g3 (by rw [r.equal]; exact e2) g2 ?_ (by rw [r.equal]; exact e1)
        simp only [List.length_append, List.length_cons] at hle
        omega

theorem set_self {α : Type} {l : List α} {i : Nat} {a : α} (h : l[i]? = some a) : l.set i a = l := by
  refine List.ext_getElem? fun j => ?_
  rw [List.getElem?_set]
  split
  · next e =>
    subst e
    rw [if_pos (List.getElem?_eq_some_iff.1 h).1, h]
  · rfl

theorem insertFull_rel {m : MHash κ δ φ} {h h' : AxlHash κ δ φ} {A : List (List Piece)} (r : Rel m h A []) {n : Nat}
    (hn : A.flatten.length ≤ n) (hz : h.hashSize = 0 → h.table = []) {k : κ} {kd : Option φ} {d : Option δ} {dd : Option φ}
    (hh : h.insertFull k kd d dd = some h') : ∃ m' A', m.insertFull n k kd d dd = some m' ∧ Rel m' h' A' [] := by
  unfold AxlHash.insertFull at hh
  split at hh
  · next h0 =>
    have r0 : Rel { m with table := List.replicate m.step none, hashSize := m.step }
        { h with table := List.replicate h.step [], hashSize := h.step } (List.replicate h.step []) [] := by
      obtain ⟨live, sp, hi, hp⟩ := r.pool
      have hA : A = [] := List.eq_nil_of_length_eq_zero (by rw [r.lenA, hz h0]; rfl)
      subst hA
      refine ⟨r.hash, r.equal, r.items, r.step, r.step, r.log, r.ts, by simp [r.step], by simp, ?_, live, sp, hi, ?_⟩
      · intro i p as ns h1 h2 h3
        have h1 := List.mem_of_getElem? h1
        have h2 := List.mem_of_getElem? h2
        have h3 := List.mem_of_getElem? h3
        rw [List.mem_replicate] at h1 h2 h3
        rw [h1.2, h2.2, h3.2]
        rfl
      · simpa using hp
    obtain ⟨p, m1, g1, g2, g3⟩ := createNode_rel r0 ⟨k, kd, d, dd⟩
    obtain ⟨m', A', g4, g5, -⟩ := insertNode_rel g2 g3 hh
    refine ⟨m', A', ?_, g5⟩
    have : m.hashSize = 0 := by rw [r.size]; exact h0
    simp [insertFull, this, g1, g4]
  · next h0 =>
    have h0' : m.hashSize ≠ 0 := by rw [r.size]; exact h0
    cases hl : h.lookup k with
    | none => simp [hl] at hh
    | some res =>
      rcases lookup_rel r hn hl with ⟨rfl, hm⟩ | ⟨x, i, p, as1, a, as2, ns1, ns2, nx, rfl, -, hpos, hm, ht, ha, hch, e1, e2, e3, e4, -, -, -, e5⟩
      · simp only [hl, Option.bind_eq_bind, Option.bind_some] at hh
        by_cases hg : h.hashSize = h.items
        · rw [if_pos hg] at hh
          have hg' : m.hashSize = m.items := by rw [r.size, r.items]; exact hg
          cases hgr : h.grow with
          | none => simp [hgr] at hh
          | some h1 =>
            simp only [hgr, Option.bind_some] at hh
            obtain ⟨m0, A0, q1, q2⟩ := grow_rel r hn hgr
            obtain ⟨p, m1, g1, g2, g3⟩ := createNode_rel q2 ⟨k, kd, d, dd⟩
            obtain ⟨m', A', g4, g5, -⟩ := insertNode_rel g2 g3 hh
            refine ⟨m', A', ?_, g5⟩
            unfold insertFull
            rw [if_neg h0', hm]
            simp [hg', q1, g1, g4]
        · rw [if_neg hg] at hh
          have hg' : ¬ m.hashSize = m.items := by rw [r.size, r.items]; exact hg
          obtain ⟨p, m1, g1, g2, g3⟩ := createNode_rel r ⟨k, kd, d, dd⟩
          obtain ⟨m', A', g4, g5, -⟩ := insertNode_rel g2 g3 hh
          refine ⟨m', A', ?_, g5⟩
          unfold insertFull
          rw [if_neg h0', hm]
          simp [hg', g1, g4]
      · simp only [hl, hpos, hch, Option.bind_eq_bind, Option.bind_some, Option.some.injEq] at hh
        subst hh
        refine ⟨{ m.write a (some ⟨⟨k, kd, d, dd⟩, nx⟩) with log := m.log ++ AxlHash.destroyNode x }, A, ?_, ?_⟩
        · unfold insertFull
          rw [if_neg h0', hm]
          simp [e3, write]
        · refine ⟨r.hash, r.equal, r.items, r.size, r.step, ?_, r.ts, ?_, ?_, ?_, r.pool⟩
          · show m.log ++ _ = h.log ++ _
            rw [r.log]
          · show m.table.length = (h.table.set _ _).length
            rw [List.length_set, r.lenT]
          · show A.length = (h.table.set _ _).length
            rw [List.length_set, r.lenA]
          · have hnd := r.nodup
            rw [List.nil_append] at hnd
            have hin : (as1 ++ a :: as2).Nodup := (List.pairwise_flatten.1 hnd).1 _ (List.mem_of_getElem? ha)
            have hna : a ∉ as1 ∧ a ∉ as2 := by
              have h := List.nodup_append.1 hin
              exact ⟨fun hm => h.2.2 a hm a (List.mem_cons_self ..) rfl, (List.nodup_cons.1 h.2.1).1⟩
            have hs : HSeg (m.write a (some ⟨⟨k, kd, d, dd⟩, nx⟩)).mem p (as1 ++ a :: as2) (ns1 ++ ⟨k, kd, d, dd⟩ :: ns2) none := by
              refine (hseg_append e1).2 ⟨some a, hseg_frame (fun b hb => write_ne _ _ fun e => hna.1 (e ▸ hb)) e2, rfl, nx,
                write_mem _ _ _, hseg_frame (fun b hb => write_ne _ _ fun e => hna.2 (e ▸ hb)) e4⟩
            have := chains_set (mem := m.mem) r.chains (i := i) (p := p) (fun j bs hj hb b hbb => write_ne m _ fun e =>
              slots_apart hnd ha hb (fun e' => hj e'.symm) a (by simp) (by rw [← e]; exact hbb)) hs
            rw [set_self ht, set_self ha] at this
            rw [e5]
            exact this

/-! ### Removal -/

theorem perm_eraseIdx {α : Type} : ∀ {l : List α} {i : Nat} {a : α}, l[i]? = some a → l.Perm (a :: l.eraseIdx i)
  | [], _, _, h => by simp at h
  | b :: l, 0, a, h => by
    simp only [List.getElem?_cons_zero, Option.some.injEq] at h
    subst h
    exact List.Perm.refl _
  | b :: l, i + 1, a, h => by
    simp only [List.getElem?_cons_succ] at h
    exact ((perm_eraseIdx h).cons b).trans (List.Perm.swap ..)

theorem removeElement_rel {m : MHash κ δ φ} {h : AxlHash κ δ φ} {A : List (List Piece)} {X : List Piece} {p : Piece}
    (r : Rel m h A (p :: X)) {x : HashNode κ δ φ} {nx : Option Piece} (hx : m.mem p = some ⟨x, nx⟩) (rem defer : Bool) :
    ∃ m', m.removeElement p rem defer =
        some (true, if defer then ⟨some x.key, x.keyDestroy, x.data, x.dataDestroy⟩ else ⟨none, none, none, none⟩, m') ∧
      (∀ q, q ≠ p → m'.mem q = m.mem q) ∧
      Rel m' { h with items := h.items - 1, log := h.log ++ if defer then [] else if rem then AxlHash.destroyNode x else [] } A X := by
  obtain ⟨live, sp, hi, hp⟩ := r.pool
  have hmem : p ∈ live := hp.mem_iff.2 (by simp)
  obtain ⟨i, hli⟩ := List.getElem?_of_mem hmem
  obtain ⟨f, sp', h1, h2, h3⟩ := Factory.release_spec hi hli
  have hperm : (live.eraseIdx i).Perm (X ++ A.flatten) := by
    have := (perm_eraseIdx hli).symm.trans hp
    exact List.Perm.cons_inv this
  have hnd := r.nodup
  have hnp : ∀ (j : Nat) bs, A[j]? = some bs → p ∉ bs := fun j bs hb hp =>
    (List.nodup_cons.1 hnd).1 (List.mem_append_right _ (List.mem_flatten.2 ⟨bs, List.mem_of_getElem? hb, hp⟩))
  have hrel : ∀ extra, Rel ({ { m with items := m.items - 1, factory := f }.write p none with log := m.log ++ extra })
      { h with items := h.items - 1, log := h.log ++ extra } A X := by
    intro extra
    refine ⟨r.hash, r.equal, ?_, r.size, r.step, ?_, h3.trans r.ts, r.lenT, r.lenA, ?_, _, sp', h2, hperm⟩
    · show m.items - 1 = h.items - 1
      rw [r.items]
    · show m.log ++ _ = h.log ++ _
      rw [r.log]
    · intro j q as ns g1 g2 g3
      refine hseg_frame (fun a ha => write_ne _ _ ?_) (r.chains j q as ns g1 g2 g3)
      rintro rfl
      exact hnp j as g2 ha
  cases defer with
  | true =>
    refine ⟨{ { m with items := m.items - 1, factory := f }.write p none with log := m.log ++ [] }, ?_, fun q hq => write_ne _ _ hq, hrel []⟩
    simp [removeElement, hx, h1, write]
  | false =>
    refine ⟨{ { m with items := m.items - 1, factory := f }.write p none with log := m.log ++ if rem then AxlHash.destroyNode x else [] }, ?_, fun q hq => write_ne _ _ hq, hrel _⟩
    simp [removeElement, hx, h1, write]

theorem unlinkFrom_none {m : MHash κ δ φ} {k : κ} : ∀ {n : Nat} {p : Piece} {as : List Piece} {ns : List (HashNode κ δ φ)},
    HSeg m.mem (some p) as ns none → as.length ≤ n → (∀ y ∈ ns, m.equal y.key k = false) → unlinkFrom n m k p = some none
  | 0, p, as, ns, h, hn, _ => by
    obtain ⟨as', x, ns', nx, rfl, -⟩ := hseg_cons h
    simp at hn
  | n + 1, p, as, ns, h, hn, he => by
    obtain ⟨as', x, ns', nx, rfl, rfl, h1, h2⟩ := hseg_cons h
    unfold unlinkFrom
    cases nx with
    | none => simp [h1]
    | some q =>
      have ih := unlinkFrom_none (n := n) h2 (by simpa using hn) fun y hy => he y (List.mem_cons_of_mem _ hy)
      obtain ⟨as'', y, ns'', nx', rfl, rfl, g1, -⟩ := hseg_cons h2
      have hy := he y (by simp)
      simp [h1, g1, hy, ih]

theorem hseg_first {mem : Piece → Option (MNode κ δ φ)} {p r : Option Piece} {as : List Piece} {a : Piece} {ns : List (HashNode κ δ φ)}
    {x : HashNode κ δ φ} (hl : as.length = ns.length) (h : HSeg mem p (as ++ [a]) (ns ++ [x]) r) :
    ∃ q z w, p = some q ∧ mem q = some ⟨z, w⟩ ∧ z ∈ ns ++ [x] := by
  cases as with
  | nil =>
    have : ns = [] := List.eq_nil_of_length_eq_zero hl.symm
    subst this
    obtain ⟨e, w, g1, -⟩ := h
    exact ⟨a, x, w, e, g1, by simp⟩
  | cons c as =>
    cases ns with
    | nil => simp at hl
    | cons z ns =>
      obtain ⟨e, w, g1, -⟩ := h
      exact ⟨c, z, w, e, g1, by simp⟩

theorem unlinkFrom_some {m : MHash κ δ φ} {k : κ} {a b : Piece} {x y : HashNode κ δ φ} {nx : Option Piece}
    (hc : m.mem a = some ⟨x, nx⟩) (he : m.equal x.key k = true) : ∀ {ns1 : List (HashNode κ δ φ)} {n : Nat} {p : Piece}
    {as1 : List Piece}, as1.length = ns1.length → HSeg m.mem (some p) (as1 ++ [b]) (ns1 ++ [y]) (some a) → as1.length < n →
    (∀ z ∈ ns1 ++ [y], m.equal z.key k = false) → unlinkFrom n m k p = some (some (a, m.write b (some ⟨y, nx⟩)))
  | [], 0, _, _, _, _, hn, _ => by omega
  | [], n + 1, p, as1, hl, hs, hn, hz => by
    have : as1 = [] := List.eq_nil_of_length_eq_zero hl
    subst this
    obtain ⟨e, nx', h1, h2⟩ := hs
    cases e
    cases (show nx' = some a from h2)
    simp [unlinkFrom, h1, hc, he, setNext]
  | z :: ns1, 0, _, _, _, _, hn, _ => by omega
  | z :: ns1, n + 1, p, as1, hl, hs, hn, hz => by
    cases as1 with
    | nil => cases hl
    | cons c as1 =>
      obtain ⟨e, nx', h1, h2⟩ := hs
      cases e
      obtain ⟨q, z', w, rfl, g1, hz'⟩ := hseg_first (by simpa using hl) h2
      have ih := unlinkFrom_some hc he (n := n) (by simpa using hl) h2 (by simpa using hn) fun z hzz => hz z (List.mem_cons_of_mem _ hzz)
      have := hz z' (List.mem_cons_of_mem _ hz')
      simp [unlinkFrom, h1, g1, this, ih]

theorem unlink_rel {m m1 : MHash κ δ φ} {h : AxlHash κ δ φ} {A : List (List Piece)} (r : Rel m h A []) {i : Nat} {as1 as2 : List Piece}
    {a : Piece} (ha : A[i]? = some (as1 ++ a :: as2)) {p : Option Piece} {ns : List (HashNode κ δ φ)}
    (hs : HSeg m1.mem p (as1 ++ as2) ns none) (hm : ∀ (j : Nat) bs, j ≠ i → A[j]? = some bs → ∀ b ∈ bs, m1.mem b = m.mem b)
    (e : m1 = { m with table := m.table.set i p, mem := m1.mem }) :
    Rel m1 { h with table := h.table.set i ns } (A.set i (as1 ++ as2)) [a] := by
  have hch := chains_set r.chains hm hs
  rw [e]
  refine ⟨r.hash, r.equal, r.items, r.size, r.step, r.log, r.ts, by simp [r.lenT], by simp [r.lenA], hch, ?_⟩
  obtain ⟨live, sp, hi, hp⟩ := r.pool
  refine ⟨live, sp, hi, hp.trans ?_⟩
  have := AxlHash.perm_set_flatten (A.set i (as1 ++ as2)) i (as1 ++ as2) (as1 ++ a :: as2) [a]
    (by rw [List.getElem?_set_self (List.getElem?_eq_some_iff.1 ha).1]) List.perm_middle
  rw [List.set_set, set_self ha] at this
  exact this

/-- What changes in memory when a node is taken out: the node, and the one before it in its chain. -/
theorem removeCommon_rel {m : MHash κ δ φ} {h h' : AxlHash κ δ φ} {A : List (List Piece)} (r : Rel m h A []) {n : Nat}
    (hn : A.flatten.length ≤ n) {k : κ} {rem defer b : Bool} {D : AxlHash.Deferred κ δ φ}
    (hh : h.removeCommon k rem defer = some (b, D, h')) :
    ∃ m' A', m.removeCommon n k rem defer = some (b, D, m') ∧ Rel m' h' A' [] ∧
      (b = true → ∃ i as1 a as2 ns1 x ns2, h.pos k = some i ∧ h.table[i]? = some (ns1 ++ x :: ns2) ∧ A[i]? = some (as1 ++ a :: as2) ∧
        A' = A.set i (as1 ++ as2) ∧ as1.length = ns1.length ∧ (∀ y ∈ ns1, h.equal y.key k = false) ∧ h.equal x.key k = true ∧
        ∀ q, q ∉ as1 → q ≠ a → m'.mem q = m.mem q) := by
  unfold AxlHash.removeCommon at hh
  split at hh
  · next h0 =>
    cases hh
    exact ⟨m, A, by simp [removeCommon, r.size, h0], r, fun h => by cases h⟩
  · next h0 =>
    have h0' : m.hashSize ≠ 0 := by rw [r.size]; exact h0
    cases hpos : h.pos k with
    | none => simp [hpos] at hh
    | some i =>
    cases hch : h.table[i]? with
    | none => simp [hpos, hch] at hh
    | some ns =>
    simp only [hpos, hch, Option.bind_eq_bind, Option.bind_some] at hh
    obtain ⟨p, as, ht, ha, hs⟩ := r.slot hch
    have hle := slot_le ha
    have hpos' : m.pos k = some i := by
      unfold pos; unfold AxlHash.pos at hpos
      rw [r.size, r.hash]; exact hpos
    rcases find_split h.equal k ns with ⟨-, f2, f3⟩ | ⟨ns1, x, ns2, rfl, f1, f2, -, f4, -⟩
    · rw [f2] at hh
      cases hh
      refine ⟨m, A, ?_, r, fun h => by cases h⟩
      cases p with
      | none => simp [removeCommon, h0', hpos', ht]
      | some p =>
        have f3' : ∀ y ∈ ns, m.equal y.key k = false := by rw [r.equal]; exact f3
        have g := unlinkFrom_none (k := k) hs (Nat.le_trans hle hn) f3'
        obtain ⟨as', y, ns', nx, rfl, rfl, g1, -⟩ := hseg_cons hs
        simp [removeCommon, h0', hpos', ht, g1, f3' y (by simp), g]
    · obtain ⟨as1, a, as2, nx, rfl, e1, e2, e3, e4⟩ := hseg_split hs
      rw [f4] at hh
      have hnd := r.nodup
      rw [List.nil_append] at hnd
      have hin : (as1 ++ a :: as2).Nodup := (List.pairwise_flatten.1 hnd).1 _ (List.mem_of_getElem? ha)
      have f2' : m.equal x.key k = true := by rw [r.equal]; exact f2
      have fin : ∀ m1 : MHash κ δ φ, Rel m1 { h with table := h.table.set i (ns1 ++ ns2) } (A.set i (as1 ++ as2)) [a] →
          m1.mem a = some ⟨x, nx⟩ → m.removeCommon n k rem defer = m1.removeElement a rem defer →
          (∀ q, q ∉ as1 → m1.mem q = m.mem q) → ∃ m', m.removeCommon n k rem defer = some (b, D, m') ∧
            Rel m' h' (A.set i (as1 ++ as2)) [] ∧ ∀ q, q ∉ as1 → q ≠ a → m'.mem q = m.mem q := by
        intro m1 r1 hx e hfr
        obtain ⟨m', g1, g2, g3⟩ := removeElement_rel r1 hx rem defer
        rw [e, g1]
        have hfr' : ∀ q, q ∉ as1 → q ≠ a → m'.mem q = m.mem q := fun q h1 h2 => (g2 q h2).trans (hfr q h1)
        cases defer with
        | true =>
          simp only [if_true, Option.some.injEq, Prod.mk.injEq] at hh
          obtain ⟨rfl, rfl, rfl⟩ := hh
          exact ⟨m', rfl, by simpa using g3, hfr'⟩
        | false =>
          simp only [Bool.false_eq_true, if_false, Option.some.injEq, Prod.mk.injEq] at hh
          obtain ⟨rfl, rfl, rfl⟩ := hh
          exact ⟨m', rfl, g3, hfr'⟩
      suffices hsu : ∃ m', m.removeCommon n k rem defer = some (b, D, m') ∧ Rel m' h' (A.set i (as1 ++ as2)) [] ∧
          ∀ q, q ∉ as1 → q ≠ a → m'.mem q = m.mem q by
        obtain ⟨m', g1, g2, g3⟩ := hsu
        exact ⟨m', _, g1, g2, fun _ => ⟨i, as1, a, as2, ns1, x, ns2, rfl, hch, ha, rfl, e1, f1, f2, g3⟩⟩
      rcases List.eq_nil_or_concat as1 with rfl | ⟨as1, c, rfl⟩
      · have : ns1 = [] := List.eq_nil_of_length_eq_zero e1.symm
        subst this
        cases (show p = some a from e2)
        refine fin { m with table := m.table.set i nx } (unlink_rel r ha e4 (fun _ _ _ _ _ _ => rfl) rfl) e3 ?_ (fun _ _ => rfl)
        simp [removeCommon, h0', hpos', ht, e3, f2']
      · rcases List.eq_nil_or_concat ns1 with rfl | ⟨ns1, y, rfl⟩
        · simp at e1
        · simp only [List.concat_eq_append, List.length_append, List.length_cons, List.length_nil, Nat.add_right_cancel_iff] at e1 e2 f1 hin ha fin f4 hh hle ⊢
          have hac : c ≠ a := by
            intro e
            have := (List.nodup_append.1 hin).2.2 c (by simp) a (by simp)
            exact this e
          obtain ⟨q, z, w, rfl, z1, z2⟩ := hseg_first e1 e2
          have f1' : ∀ z ∈ ns1 ++ [y], m.equal z.key k = false := by rw [r.equal]; exact f1
          have g := unlinkFrom_some (k := k) e3 f2' e1 e2 (n := n) (by omega) f1'
          have hy : m.mem c = some ⟨y, some a⟩ := by
            obtain ⟨s, -, -, nx', s3, s4⟩ := (hseg_append e1).1 e2
            rw [s3]
            cases (show nx' = some a from s4)
            rfl
          refine fin (m.write c (some ⟨y, nx⟩)) (unlink_rel (p := some q) r ha ?_ ?_ ?_) ?_ ?_ (fun b hb => write_ne _ _ ?_)
          · refine (hseg_append (by simp [e1])).2 ⟨nx, hseg_retarget e1 e2 (fun b hb => write_ne _ _ ?_) (fun _ _ => write_mem _ _ _),
              hseg_frame (fun b hb => write_ne _ _ ?_) e4⟩
            · rintro rfl
              have := (List.nodup_append.1 (List.nodup_append.1 hin).1).2.2 b hb b (by simp)
              exact this rfl
            · rintro rfl
              have := (List.nodup_append.1 hin).2.2 b (by simp) b (by simp [hb])
              exact this rfl
          · intro j bs hj hb b' hbb
            exact write_ne _ _ fun e => slots_apart hnd ha hb (fun e' => hj e'.symm) c (by simp) (by rw [← e]; exact hbb)
          · simp [write, set_self ht]
          · rw [write_ne _ _ (Ne.symm hac)]
            exact e3
          · simp [removeCommon, h0', hpos', ht, z1, f1' z z2, g]
          · rintro rfl
            exact hb (by simp)

end MHash
end Axl
