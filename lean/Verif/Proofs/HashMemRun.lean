/-
The calls on the table with its nodes in memory give what they give on the table with lists.
-/
import Verif.Proofs.HashMem
import Verif.Proofs.HashRun
import Verif.Spec.HashMemApi

namespace Axl
open Spec.Map
variable {κ δ φ : Type}

namespace MHash

theorem get_rel {m : MHash κ δ φ} {h : AxlHash κ δ φ} {A : List (List Piece)} {X : List Piece} (r : Rel m h A X) {n : Nat}
    (hn : A.flatten.length ≤ n) {k : κ} {v : Option δ} (hh : h.get k = some v) : m.get n k = some v := by
  unfold AxlHash.get at hh
  unfold get
  rw [r.items]
  split at hh
  · next h0 => rw [if_pos h0]; exact hh
  · next h0 =>
    rw [if_neg h0]
    cases hl : h.lookup k with
    | none => simp [hl] at hh
    | some res =>
      simp only [hl, Option.bind_eq_bind, Option.bind_some, Option.some.injEq] at hh
      subst hh
      rcases lookup_rel r hn hl with ⟨rfl, hm⟩ | ⟨x, i, p, as1, a, as2, ns1, ns2, nx, rfl, -, -, hm, -, -, -, -, -, e3, -⟩
      · simp [hm]
      · simp [hm, e3]

theorem exists_rel {m : MHash κ δ φ} {h : AxlHash κ δ φ} {A : List (List Piece)} {X : List Piece} (r : Rel m h A X) {n : Nat}
    (hn : A.flatten.length ≤ n) {k : κ} {v : Bool} (hh : h.exists k = some v) : m.exists n k = some v := by
  unfold AxlHash.exists at hh
  cases hl : h.lookup k with
  | none => simp [hl] at hh
  | some res =>
    simp only [hl, Option.bind_eq_bind, Option.bind_some, Option.some.injEq] at hh
    subst hh
    rcases lookup_rel r hn hl with ⟨rfl, hm⟩ | ⟨x, i, p, as1, a, as2, ns1, ns2, nx, rfl, -, -, hm, -⟩
    · simp [«exists», hm]
    · simp [«exists», hm]

theorem remove_rel {m : MHash κ δ φ} {h h' : AxlHash κ δ φ} {A : List (List Piece)} (r : Rel m h A []) {n : Nat}
    (hn : A.flatten.length ≤ n) {k : κ} {b : Bool} (hh : h.remove k = some (b, h')) :
    ∃ m' A', m.remove n k = some (b, m') ∧ Rel m' h' A' [] := by
  unfold AxlHash.remove at hh
  cases hc : h.removeCommon k true false with
  | none => simp [hc] at hh
  | some t =>
    obtain ⟨b', D, h1⟩ := t
    simp only [hc, Option.bind_eq_bind, Option.bind_some, Option.some.injEq, Prod.mk.injEq] at hh
    obtain ⟨rfl, rfl⟩ := hh
    obtain ⟨m', A', g1, g2, -⟩ := removeCommon_rel r hn hc
    exact ⟨m', A', by simp [remove, g1], g2⟩

theorem delete_rel {m : MHash κ δ φ} {h h' : AxlHash κ δ φ} {A : List (List Piece)} (r : Rel m h A []) {n : Nat}
    (hn : A.flatten.length ≤ n) {k : κ} {b : Bool} (hh : h.delete k = some (b, h')) :
    ∃ m' A', m.delete n k = some (b, m') ∧ Rel m' h' A' [] := by
  unfold AxlHash.delete at hh
  cases hc : h.removeCommon k false false with
  | none => simp [hc] at hh
  | some t =>
    obtain ⟨b', D, h1⟩ := t
    simp only [hc, Option.bind_eq_bind, Option.bind_some, Option.some.injEq, Prod.mk.injEq] at hh
    obtain ⟨rfl, rfl⟩ := hh
    obtain ⟨m', A', g1, g2, -⟩ := removeCommon_rel r hn hc
    exact ⟨m', A', by simp [delete, g1], g2⟩

theorem removeDeferred_rel {m : MHash κ δ φ} {h h' : AxlHash κ δ φ} {A : List (List Piece)} (r : Rel m h A []) {n : Nat}
    (hn : A.flatten.length ≤ n) {k : κ} {b : Bool} {D : AxlHash.Deferred κ δ φ} (hh : h.removeDeferred k = some (b, D, h')) :
    ∃ m' A', m.removeDeferred n k = some (b, D, m') ∧ Rel m' h' A' [] := by
  obtain ⟨m', A', g1, g2, -⟩ := removeCommon_rel r hn hh
  exact ⟨m', A', g1, g2⟩

theorem exec_rel {m : MHash κ δ φ} {h h' : AxlHash κ δ φ} {A : List (List Piece)} (r : Rel m h A []) {n : Nat}
    (hn : A.flatten.length ≤ n) (hz : h.hashSize = 0 → h.table = []) {op : Op κ δ φ} (hh : h.exec op = some h') :
    ∃ m' A', m.exec n op = some m' ∧ Rel m' h' A' [] := by
  cases op with
  | insert e => exact insertFull_rel r hn hz hh
  | remove k =>
    obtain ⟨⟨b, h1⟩, g1, rfl⟩ := Option.map_eq_some_iff.1 hh
    obtain ⟨m', A', g2, g3⟩ := remove_rel r hn g1
    exact ⟨m', A', by simp [exec, g2], g3⟩
  | delete k =>
    obtain ⟨⟨b, h1⟩, g1, rfl⟩ := Option.map_eq_some_iff.1 hh
    obtain ⟨m', A', g2, g3⟩ := delete_rel r hn g1
    exact ⟨m', A', by simp [exec, g2], g3⟩
  | removeDeferred k =>
    obtain ⟨⟨b, D, h1⟩, g1, rfl⟩ := Option.map_eq_some_iff.1 hh
    obtain ⟨m', A', g2, g3⟩ := removeDeferred_rel r hn g1
    exact ⟨m', A', by simp [exec, g2], g3⟩

theorem entered_le : ∀ ops : List (Op κ δ φ), (entered ops).length ≤ ops.length
  | [] => Nat.le_refl _
  | .insert _ :: ops => by simpa [entered] using entered_le ops
  | .remove _ :: ops => by have := entered_le ops; simp [entered]; omega
  | .delete _ :: ops => by have := entered_le ops; simp [entered]; omega
  | .removeDeferred _ :: ops => by have := entered_le ops; simp [entered]; omega

section
variable [NullKey κ]

theorem hist_count {hash : κ → Nat} {eq : κ → κ → Bool} {h : AxlHash κ δ φ} {past : List (Op κ δ φ)}
    (hh : AxlHash.Hist hash eq h past) : h.table.flatten.length ≤ past.length := by
  obtain ⟨ds, hp, -⟩ := hh.ledger
  have := hp.length_eq
  have := entered_le past
  simp only [List.length_append, List.length_map] at *
  omega

theorem run_rel {hash : κ → Nat} {eq : κ → κ → Bool} {n : Nat} : ∀ (ops : List (Op κ δ φ)) {m : MHash κ δ φ} {h : AxlHash κ δ φ}
    {A : List (List Piece)} {past : List (Op κ δ φ)}, Rel m h A [] → AxlHash.Hist hash eq h past → past.length + ops.length ≤ n →
    ∃ m' h' A', m.run n ops = some m' ∧ h.run ops = some h' ∧ Rel m' h' A' [] ∧ AxlHash.Hist hash eq h' (ops.reverse ++ past)
  | [], m, h, A, past, r, hh, _ => ⟨m, h, A, rfl, rfl, r, hh⟩
  | op :: ops, m, h, A, past, r, hh, hn => by
    obtain ⟨h1, he, hh1⟩ := AxlHash.hist_exec hh op
    have hc := hist_count hh
    obtain ⟨m1, A1, g1, g2⟩ := exec_rel r (n := n) (by rw [r.count]; simp at hn; omega) (AxlHash.table_nil hh.inv.toTInv) he
    obtain ⟨m', h', A', k1, k2, k3, k4⟩ := run_rel (n := n) ops g2 hh1 (by simp at hn ⊢; omega)
    exact ⟨m', h', A', by simp [run, g1, k1], by simp [AxlHash.run, he, k2], k3, by simpa using k4⟩

theorem newFull_rel (hash : κ → Nat) (eq : κ → κ → Bool) (step : Nat) (junk : Piece → Option Piece) :
    ∃ m : MHash κ δ φ, newFull hash eq step junk = some m ∧ Rel m (AxlHash.newFull hash eq step) [] [] := by
  obtain ⟨f, g1, g2, g3⟩ := Factory.inv_create nodeSize (by decide)
  refine ⟨_, by simp only [newFull, g1]; rfl, rfl, rfl, rfl, rfl, rfl, rfl, g3, rfl, rfl, ?_, [], [], g2, List.Perm.refl _⟩
  intro i p as ns h1
  simp at h1

/-! ### foreach and free -/

theorem foreachFrom_seg {m : MHash κ δ φ} {stop : κ → Option δ → Bool} : ∀ {ns : List (HashNode κ δ φ)} {n : Nat} {p : Piece}
    {as : List Piece}, HSeg m.mem (some p) as ns none → as.length ≤ n →
    m.foreachFrom stop n p = some ((AxlHash.foreachChain stop ns).1, (AxlHash.foreachChain stop ns).2.map fun x => (x.key, x.data))
  | ns, 0, p, as, h, hn => by
    obtain ⟨as', x, ns', nx, rfl, -⟩ := hseg_cons h
    simp at hn
  | ns, n + 1, p, as, h, hn => by
    obtain ⟨as', x, ns', nx, rfl, rfl, h1, h2⟩ := hseg_cons h
    unfold foreachFrom AxlHash.foreachChain
    by_cases hs : stop x.key x.data = true
    · simp [h1, hs]
    · cases nx with
      | none =>
        obtain ⟨rfl, rfl⟩ := hseg_nil h2
        simp [h1, hs, AxlHash.foreachChain]
      | some q =>
        have ih := foreachFrom_seg (stop := stop) (n := n) h2 (by simpa using hn)
        simp [h1, hs, ih]

theorem foreachTable_chains {m : MHash κ δ φ} {stop : κ → Option δ → Bool} {n : Nat} : ∀ {T : List (Option Piece)}
    {A : List (List Piece)} {H : List (List (HashNode κ δ φ))}, T.length = H.length → A.length = H.length → Chains m.mem T A H →
    A.flatten.length ≤ n → foreachTable n m stop T =
      some (((H.flatten.takeWhile fun x => !stop x.key x.data) ++ (H.flatten.find? fun x => stop x.key x.data).toList).map
        fun x => (x.key, x.data))
  | [], [], [], _, _, _, _ => rfl
  | [], _, _ :: _, h, _, _, _ => by cases h
  | _ :: _, _, [], h, _, _, _ => by cases h
  | _ :: _, [], _ :: _, _, h, _, _ => by cases h
  | [], _ :: _, [], _, h, _, _ => by cases h
  | t :: T, as :: A, ns :: H, hT, hA, hc, hn => by
    have h0 : HSeg m.mem t as ns none := hc 0 t as ns rfl rfl rfl
    have hc' : Chains m.mem T A H := fun i p as ns h1 h2 h3 => hc (i + 1) p as ns h1 h2 h3
    simp only [List.flatten_cons, List.length_append] at hn
    have ih := foreachTable_chains (stop := stop) (n := n) (by simpa using hT) (by simpa using hA) hc' (by omega)
    cases t with
    | none =>
      obtain ⟨rfl, rfl⟩ := hseg_nil h0
      simpa [foreachTable] using ih
    | some p =>
      have g := foreachFrom_seg (stop := stop) (n := n) h0 (by omega)
      obtain ⟨k1, k2, k3⟩ := AxlHash.foreachChain_spec stop ns
      rw [List.flatten_cons, AxlHash.takeWhile_append_any]
      cases hst : (AxlHash.foreachChain stop ns).1 with
      | true =>
        rw [hst] at k1
        rw [← k1]
        simp [foreachTable, g, hst, k3]
      | false =>
        have hst' := hst
        rw [hst] at k1
        rw [← k1]
        simp [foreachTable, g, hst, k2 hst', ih]

theorem foreach_rel {m : MHash κ δ φ} {h : AxlHash κ δ φ} {A : List (List Piece)} {X : List Piece} (r : Rel m h A X)
    (hl : h.table.length = h.hashSize) {n : Nat} (hn : A.flatten.length ≤ n) (stop : κ → Option δ → Bool) :
    m.foreach n stop = some (((h.table.flatten.takeWhile fun x => !stop x.key x.data) ++
      (h.table.flatten.find? fun x => stop x.key x.data).toList).map fun x => (x.key, x.data)) := by
  have : m.table.take m.hashSize = m.table := by rw [r.size, ← hl, ← r.lenT]; exact List.take_length
  unfold foreach
  rw [this]
  exact foreachTable_chains r.lenT r.lenA r.chains hn

theorem freeFrom_seg {m : MHash κ δ φ} : ∀ {ns : List (HashNode κ δ φ)} {n : Nat} {p : Piece}
    {as : List Piece}, HSeg m.mem (some p) as ns none → as.length ≤ n →
    m.freeFrom n p = some (ns.flatMap fun x => AxlHash.cleanupCalls x.key x.keyDestroy x.data x.dataDestroy)
  | ns, 0, p, as, h, hn => by
    obtain ⟨as', x, ns', nx, rfl, -⟩ := hseg_cons h
    simp at hn
  | ns, n + 1, p, as, h, hn => by
    obtain ⟨as', x, ns', nx, rfl, rfl, h1, h2⟩ := hseg_cons h
    unfold freeFrom
    cases nx with
    | none =>
      obtain ⟨rfl, rfl⟩ := hseg_nil h2
      simp [h1]
    | some q =>
      have ih := freeFrom_seg (n := n) h2 (by simpa using hn)
      simp [h1, ih]

theorem freeTable_chains {m : MHash κ δ φ} {n : Nat} : ∀ {T : List (Option Piece)}
    {A : List (List Piece)} {H : List (List (HashNode κ δ φ))}, T.length = H.length → A.length = H.length → Chains m.mem T A H →
    A.flatten.length ≤ n → freeTable n m T =
      some (H.flatten.flatMap fun x => AxlHash.cleanupCalls x.key x.keyDestroy x.data x.dataDestroy)
  | [], [], [], _, _, _, _ => rfl
  | [], _, _ :: _, h, _, _, _ => by cases h
  | _ :: _, _, [], h, _, _, _ => by cases h
  | _ :: _, [], _ :: _, _, h, _, _ => by cases h
  | [], _ :: _, [], _, h, _, _ => by cases h
  | t :: T, as :: A, ns :: H, hT, hA, hc, hn => by
    have h0 : HSeg m.mem t as ns none := hc 0 t as ns rfl rfl rfl
    have hc' : Chains m.mem T A H := fun i p as ns h1 h2 h3 => hc (i + 1) p as ns h1 h2 h3
    simp only [List.flatten_cons, List.length_append] at hn
    have ih := freeTable_chains (n := n) (by simpa using hT) (by simpa using hA) hc' (by omega)
    rw [List.flatten_cons, List.flatMap_append]
    cases t with
    | none =>
      obtain ⟨rfl, rfl⟩ := hseg_nil h0
      simpa [freeTable] using ih
    | some p =>
      have g := freeFrom_seg (n := n) h0 (by omega)
      simp only [freeTable, g, ih, Option.bind_eq_bind, Option.bind_some]

theorem free_rel {m : MHash κ δ φ} {h : AxlHash κ δ φ} {A : List (List Piece)} {X : List Piece} (r : Rel m h A X)
    (hl : h.table.length = h.hashSize) {n : Nat} (hn : A.flatten.length ≤ n) : m.free n = some h.free := by
  have h1 : m.table.take m.hashSize = m.table := by rw [r.size, ← hl, ← r.lenT]; exact List.take_length
  have h2 : h.table.take h.hashSize = h.table := by rw [← hl]; exact List.take_length
  unfold free AxlHash.free
  rw [h1, h2, freeTable_chains r.lenT r.lenA r.chains hn, r.log]
  rfl

end

/-! ### The pieces in use -/

theorem hseg_nodes {mem : Piece → Option (MNode κ δ φ)} : ∀ {as : List Piece} {ns : List (HashNode κ δ φ)} {p q : Option Piece},
    HSeg mem p as ns q → as.map (fun a => (mem a).map (·.node)) = ns.map some
  | [], [], _, _, _ => rfl
  | _ :: _, _ :: _, _, _, ⟨_, nx, h1, h2⟩ => by simp [h1, hseg_nodes h2]
  | [], _ :: _, _, _, h => h.elim
  | _ :: _, [], _, _, h => h.elim

theorem chains_nodes {mem : Piece → Option (MNode κ δ φ)} : ∀ {T : List (Option Piece)}
    {A : List (List Piece)} {H : List (List (HashNode κ δ φ))}, T.length = H.length → A.length = H.length → Chains mem T A H →
    A.flatten.map (fun a => (mem a).map (·.node)) = H.flatten.map some
  | [], [], [], _, _, _ => rfl
  | [], _, _ :: _, h, _, _ => by cases h
  | _ :: _, _, [], h, _, _ => by cases h
  | _ :: _, [], _ :: _, _, h, _ => by cases h
  | [], _ :: _, [], _, h, _ => by cases h
  | t :: T, as :: A, ns :: H, hT, hA, hc => by
    have h0 : HSeg mem t as ns none := hc 0 t as ns rfl rfl rfl
    have hc' : Chains mem T A H := fun i p as ns h1 h2 h3 => hc (i + 1) p as ns h1 h2 h3
    simp only [List.flatten_cons, List.map_append]
    rw [hseg_nodes h0, chains_nodes (by simpa using hT) (by simpa using hA) hc']

end MHash

/-! ### Cursors -/

namespace MCursor
open MHash
variable [NullKey κ]

/-- The cursor in memory is the cursor with lists. -/
structure CRel (c : MCursor κ δ φ) (c' : HashCursor κ δ φ) (A : List (List Piece)) (as : List Piece) : Prop where
  rel : Rel c.hash c'.hash A []
  len : c'.hash.table.length = c'.hash.hashSize
  index : c'.index = (c.index : Int)
  seg : HSeg c.hash.mem c.node as c'.node none
  at_ : c'.node ≠ [] → ∃ pas pre, A[c.index]? = some (pas ++ as) ∧ c'.hash.table[c.index]? = some (pre ++ c'.node) ∧
    pas.length = pre.length

theorem search_rel {c : MCursor κ δ φ} {c' : HashCursor κ δ φ} {A : List (List Piece)} (r : Rel c.hash c'.hash A [])
    (hl : c'.hash.table.length = c'.hash.hashSize) : ∀ (k i : Nat), i + k = c.hash.hashSize →
    (c.search k i = some (none, i + k) ∧ (c'.hash.table.drop i).flatten = [] ∧ ∀ fuel, k < fuel → c'.initFirstLoop fuel i = some ([], ((i + k : Nat) : Int)) ∧
      c'.nextLoop fuel i = some { c' with node := [], index := ((i + k : Nat) : Int) } ∧ c'.hasNextLoop fuel i = some false) ∨
    ∃ p j as ns, c.search k i = some (some p, j) ∧ A[j]? = some as ∧ c'.hash.table[j]? = some ns ∧ ns ≠ [] ∧
      HSeg c.hash.mem (some p) as ns none ∧ ∀ fuel, k < fuel → c'.initFirstLoop fuel i = some (ns, (j : Int)) ∧
      c'.nextLoop fuel i = some { c' with node := ns, index := (j : Int) } ∧ c'.hasNextLoop fuel i = some true
  | 0, i, hi => by
    left
    have hs := r.size
    refine ⟨rfl, by rw [List.drop_eq_nil_of_le (by omega)]; rfl, fun fuel hf => ?_⟩
    obtain ⟨f, rfl⟩ : ∃ f, fuel = f + 1 := ⟨fuel - 1, by omega⟩
    have hlt : ¬ (i : Int) < (c'.hash.hashSize : Int) := by omega
    simp [HashCursor.initFirstLoop, HashCursor.nextLoop, HashCursor.hasNextLoop, hlt]
  | k + 1, i, hi => by
    have hs := r.size
    have hlt : (i : Int) < (c'.hash.hashSize : Int) := by omega
    have hit : i < c'.hash.table.length := by omega
    obtain ⟨ns, hns⟩ : ∃ ns, c'.hash.table[i]? = some ns := ⟨_, List.getElem?_eq_getElem hit⟩
    obtain ⟨p, as, ht, ha, hseg⟩ := r.slot hns
    have hb : c'.bucket (i : Int) = some ns := by rw [HashCursor.bucket_nat]; exact hns
    cases p with
    | none =>
      obtain ⟨rfl, rfl⟩ := hseg_nil hseg
      have hcast : (i : Int) + 1 = ((i + 1 : Nat) : Int) := by omega
      have e : i + (k + 1) = i + 1 + k := by omega
      have hstep : c.search (k + 1) i = c.search k (i + 1) := by simp [search, ht]
      rw [hstep, e]
      rcases search_rel r hl k (i + 1) (by omega) with ⟨g1, g0, g2⟩ | ⟨p, j, as, ns, g1, g2, g3, g4, g5, g6⟩
      · left
        refine ⟨g1, ?_, fun fuel hf => ?_⟩
        · rw [List.drop_eq_getElem_cons hit, List.flatten_cons, g0, List.append_nil]
          rw [List.getElem?_eq_getElem hit] at hns
          exact Option.some.inj hns
        obtain ⟨f, rfl⟩ : ∃ f, fuel = f + 1 := ⟨fuel - 1, by omega⟩
        have := g2 f (by omega)
        simp only [HashCursor.initFirstLoop, HashCursor.nextLoop, HashCursor.hasNextLoop, hlt, hb, hcast, if_true, Option.bind_eq_bind,
          Option.bind_some, ne_eq, not_true, if_false]
        exact this
      · right
        refine ⟨p, j, as, ns, g1, g2, g3, g4, g5, fun fuel hf => ?_⟩
        obtain ⟨f, rfl⟩ : ∃ f, fuel = f + 1 := ⟨fuel - 1, by omega⟩
        have := g6 f (by omega)
        simp only [HashCursor.initFirstLoop, HashCursor.nextLoop, HashCursor.hasNextLoop, hlt, hb, hcast, if_true, Option.bind_eq_bind,
          Option.bind_some, ne_eq, not_true, if_false]
        exact this
    | some p =>
      right
      have hne : ns ≠ [] := by
        obtain ⟨as', x, ns', nx, rfl, rfl, -⟩ := hseg_cons hseg
        simp
      refine ⟨p, i, as, ns, by simp [search, ht], ha, hns, hne, hseg, fun fuel hf => ?_⟩
      obtain ⟨f, rfl⟩ : ∃ f, fuel = f + 1 := ⟨fuel - 1, by omega⟩
      simp [HashCursor.initFirstLoop, HashCursor.nextLoop, HashCursor.hasNextLoop, hlt, hb, hne]

theorem first_rel {c : MCursor κ δ φ} {c' c1' : HashCursor κ δ φ} {A : List (List Piece)} (r : Rel c.hash c'.hash A [])
    (hl : c'.hash.table.length = c'.hash.hashSize) (h0 : c'.hash.table.flatten = [] → c.node = none ∧ c'.node = [])
    (hf : c'.first = some c1') : ∃ c1 as, c.first = some c1 ∧ CRel c1 c1' A as := by
  have hs := r.size
  rcases search_rel r hl c.hash.hashSize 0 (by omega) with ⟨g1, g0, g2⟩ | ⟨p, j, as, ns, g1, g2, g3, g4, g5, g6⟩
  · obtain ⟨e, -, -⟩ := g2 (c'.hash.hashSize + 1) (by omega)
    have hem : c'.hash.table.flatten = [] := by simpa using g0
    obtain ⟨k1, k2⟩ := h0 hem
    have e' : c'.initFirstLoop (c'.hash.hashSize + 1) 0 = some ([], ((0 + c.hash.hashSize : Nat) : Int)) := e
    have : HashCursor.first c' = some { c' with index := 0 } := by simp [HashCursor.first, e']
    rw [this] at hf
    cases hf
    refine ⟨{ c with index := 0 }, [], by simp [first, g1], r, hl, rfl, ?_, fun h => absurd k2 h⟩
    show HSeg _ c.node [] c'.node none
    rw [k1, k2]
    rfl
  · obtain ⟨e, -, -⟩ := g6 (c'.hash.hashSize + 1) (by omega)
    have e' : c'.initFirstLoop (c'.hash.hashSize + 1) 0 = some (ns, (j : Int)) := e
    have : HashCursor.first c' = some { c' with node := ns, index := (j : Int) } := by simp [HashCursor.first, e', g4]
    rw [this] at hf
    cases hf
    exact ⟨{ c with node := some p, index := j }, as, by simp [first, g1], r, hl, rfl, g5, fun _ => ⟨[], [], g2, g3, rfl⟩⟩

theorem next_rel {c : MCursor κ δ φ} {c' c1' : HashCursor κ δ φ} {A : List (List Piece)} {as : List Piece} (r : CRel c c' A as)
    (hf : c'.next = some c1') : ∃ c1 as', c.next = some c1 ∧ CRel c1 c1' A as' := by
  obtain ⟨r, hl, hi, hs, ha⟩ := r
  have hsz := r.size
  cases hn : c.node with
  | none =>
    rw [hn] at hs
    obtain ⟨rfl, e⟩ := hseg_nil hs
    have : c'.next = some c' := by simp [HashCursor.next, e]
    rw [this] at hf
    cases hf
    exact ⟨c, [], by simp [next, hn], r, hl, hi, by rw [hn, e]; rfl, fun h => absurd e h⟩
  | some p =>
    rw [hn] at hs
    obtain ⟨as', x, ns', nx, rfl, e, g1, g2⟩ := hseg_cons hs
    obtain ⟨pas, pre, a1, a2, a3⟩ := ha (by rw [e]; simp)
    have hlt : c.index < c'.hash.table.length := (List.getElem?_eq_some_iff.1 a2).1
    cases nx with
    | some q =>
      obtain ⟨as'', y, ns'', nx', rfl, rfl, g3, g4⟩ := hseg_cons g2
      have : c'.next = some { c' with node := y :: ns'' } := by simp [HashCursor.next, e]
      rw [this] at hf
      cases hf
      refine ⟨{ c with node := some q }, q :: as'', by simp [next, hn, g1], r, hl, hi, g2, fun _ => ⟨pas ++ [p], pre ++ [x], ?_, ?_, ?_⟩⟩
      · simpa using a1
      · rw [e] at a2
        simpa using a2
      · simp [a3]
    | none =>
      obtain ⟨rfl, rfl⟩ := hseg_nil g2
      have hcast : c'.index + 1 = ((c.index + 1 : Nat) : Int) := by rw [hi]; omega
      have hnx : c'.next = if (c'.hash.hashSize : Int) ≤ ((c.index + 1 : Nat) : Int) then some { c' with node := [], index := ((c.index + 1 : Nat) : Int) }
          else c'.nextLoop (c'.hash.hashSize + 1) ((c.index + 1 : Nat) : Int) := by
        simp only [HashCursor.next, e, hcast]
      rw [hnx] at hf
      rcases search_rel r hl (c.hash.hashSize - (c.index + 1)) (c.index + 1) (by omega) with ⟨k1, -, k2⟩ | ⟨p', j, bs, ns, k1, k2, k3, k4, k5, k6⟩
      · obtain ⟨-, e2, -⟩ := k2 (c'.hash.hashSize + 1) (by omega)
        rw [e2] at hf
        have hc1 : c1' = { c' with node := [], index := ((c.index + 1 + (c.hash.hashSize - (c.index + 1)) : Nat) : Int) } := by
          split at hf
          · next hle =>
            cases hf
            congr 2
            omega
          · cases hf
            rfl
        subst hc1
        exact ⟨{ c with node := none, index := c.index + 1 + (c.hash.hashSize - (c.index + 1)) }, [], by simp [next, hn, g1, k1], r, hl,
          rfl, rfl, fun h => absurd rfl h⟩
      · obtain ⟨-, e2, -⟩ := k6 (c'.hash.hashSize + 1) (by omega)
        have hlt2 : ¬ (c'.hash.hashSize : Int) ≤ ((c.index + 1 : Nat) : Int) := by
          intro hle
          have : c.hash.hashSize - (c.index + 1) = 0 := by omega
          rw [this] at k1
          cases k1
        rw [if_neg hlt2, e2] at hf
        cases hf
        exact ⟨{ c with node := some p', index := j }, bs, by simp [next, hn, g1, k1], r, hl, rfl, k5, fun _ => ⟨[], [], k2, k3, rfl⟩⟩

theorem hasNext_rel {c : MCursor κ δ φ} {c' : HashCursor κ δ φ} {A : List (List Piece)} {as : List Piece} (r : CRel c c' A as)
    (hit : c.hasItem = true) {b : Bool} (hf : c'.hasNext = some b) : c.hasNext = some b := by
  obtain ⟨r, hl, hi, hs, ha⟩ := r
  have hsz := r.size
  cases hn : c.node with
  | none => simp [hasItem, hn] at hit
  | some p =>
    rw [hn] at hs
    obtain ⟨as', x, ns', nx, rfl, e, g1, g2⟩ := hseg_cons hs
    obtain ⟨pas, pre, a1, a2, a3⟩ := ha (by rw [e]; simp)
    have hlt : c.index < c'.hash.table.length := (List.getElem?_eq_some_iff.1 a2).1
    cases nx with
    | some q =>
      obtain ⟨as'', y, ns'', nx', rfl, rfl, g3, g4⟩ := hseg_cons g2
      simp only [HashCursor.hasNext, e] at hf
      cases hf
      simp [hasNext, hn, g1]
    | none =>
      obtain ⟨rfl, rfl⟩ := hseg_nil g2
      have hcast : c'.index + 1 = ((c.index + 1 : Nat) : Int) := by rw [hi]; omega
      simp only [HashCursor.hasNext, e, hcast] at hf
      rcases search_rel r hl (c.hash.hashSize - (c.index + 1)) (c.index + 1) (by omega) with ⟨k1, -, k2⟩ | ⟨p', j, bs, ns, k1, k2, k3, k4, k5, k6⟩
      · obtain ⟨-, -, e2⟩ := k2 (c'.hash.hashSize + 1) (by omega)
        rw [e2] at hf
        cases hf
        simp [hasNext, hn, g1, k1]
      · obtain ⟨-, -, e2⟩ := k6 (c'.hash.hashSize + 1) (by omega)
        rw [e2] at hf
        cases hf
        simp [hasNext, hn, g1, k1]

theorem hasItem_rel {c : MCursor κ δ φ} {c' : HashCursor κ δ φ} {A : List (List Piece)} {as : List Piece} (r : CRel c c' A as) :
    c.hasItem = c'.hasItem := by
  have hs := r.seg
  cases hn : c.node with
  | none =>
    rw [hn] at hs
    obtain ⟨-, e⟩ := hseg_nil hs
    simp [hasItem, HashCursor.hasItem, hn, e]
  | some p =>
    rw [hn] at hs
    obtain ⟨as', x, ns', nx, rfl, e, -⟩ := hseg_cons hs
    simp [hasItem, HashCursor.hasItem, hn, e]

theorem content_rel {c : MCursor κ δ φ} {c' : HashCursor κ δ φ} {A : List (List Piece)} {as : List Piece} (r : CRel c c' A as) :
    c.getKey = some c'.getKey ∧ c.getValue = some c'.getValue := by
  have hs := r.seg
  cases hn : c.node with
  | none =>
    rw [hn] at hs
    obtain ⟨-, e⟩ := hseg_nil hs
    simp [getKey, getValue, HashCursor.getKey, HashCursor.getValue, hn, e]
  | some p =>
    rw [hn] at hs
    obtain ⟨as', x, ns', nx, rfl, e, g1, -⟩ := hseg_cons hs
    simp [getKey, getValue, HashCursor.getKey, HashCursor.getValue, hn, e, g1]

theorem reads_rel {c' : HashCursor κ δ φ} {ps : List (Option κ × Option δ)} (h : HashCursor.Reads c' ps) :
    ∀ {c : MCursor κ δ φ} {A : List (List Piece)} {as : List Piece}, CRel c c' A as → Reads c ps := by
  induction h with
  | done h => intro c A as r; exact .done (by rw [hasItem_rel r]; exact h)
  | item h1 h2 h3 _ ih =>
    intro c A as r
    obtain ⟨c1, as', g1, g2⟩ := next_rel r h3
    have hit : c.hasItem = true := by rw [hasItem_rel r]; exact h1
    exact .item hit (content_rel r).1 (content_rel r).2 (hasNext_rel r hit h2) g1 (ih g2)

theorem split_at {eq : κ → κ → Bool} (hsymm : ∀ a b, eq a b = true → eq b a = true) {n n' : HashNode κ δ φ}
    (he : eq n'.key n.key = true) : ∀ (a b c d : List (HashNode κ δ φ)), (a ++ n :: b).Pairwise (AxlHash.Differ eq) →
    a ++ n :: b = c ++ n' :: d → a = c ∧ n = n' ∧ b = d
  | [], b, [], d, _, h => by simp at h; exact ⟨rfl, h⟩
  | x :: a, b, [], d, hp, h => by
    simp only [List.cons_append, List.nil_append, List.cons.injEq] at h
    obtain ⟨rfl, h⟩ := h
    rw [List.cons_append, List.pairwise_cons] at hp
    have := hp.1 n (by simp)
    unfold AxlHash.Differ at this; rw [he] at this; cases this
  | [], b, x :: c, d, hp, h => by
    simp only [List.cons_append, List.nil_append, List.cons.injEq] at h
    obtain ⟨rfl, rfl⟩ := h
    rw [List.nil_append, List.pairwise_cons] at hp
    have := hp.1 n' (by simp)
    unfold AxlHash.Differ at this; rw [hsymm _ _ he] at this; cases this
  | x :: a, b, y :: c, d, hp, h => by
    simp only [List.cons_append, List.cons.injEq] at h
    rw [List.cons_append, List.pairwise_cons] at hp
    obtain ⟨h1, h2, h3⟩ := split_at hsymm he a b c d hp.2 h.2
    exact ⟨by rw [h.1, h1], h2, h3⟩

theorem remove_rel {c : MCursor κ δ φ} {c' c1' : HashCursor κ δ φ} {A : List (List Piece)} {as : List Piece} (r : CRel c c' A as)
    (hinv : AxlHash.Inv c'.hash) {n : Nat} (hn : A.flatten.length ≤ n) (hit : c'.hasItem = true) (hf : c'.remove = some c1') :
    ∃ c1 A' as', c.remove n = some c1 ∧ CRel c1 c1' A' as' ∧ AxlHash.Inv c1'.hash ∧ A'.flatten.length ≤ n := by
  obtain ⟨r, hl, hi, hs, ha⟩ := r
  cases hnode : c.node with
  | none =>
    rw [hnode] at hs
    obtain ⟨rfl, e⟩ := hseg_nil hs
    simp [HashCursor.hasItem, e] at hit
  | some p =>
    rw [hnode] at hs
    obtain ⟨as', x, rest, nx, rfl, e, g1, g2⟩ := hseg_cons hs
    obtain ⟨pas, pre, a1, a2, a3⟩ := ha (by rw [e]; simp)
    have hat : HashCursor.At c' c.index pre := ⟨hl, hi, a2, by rw [e]; simp⟩
    obtain ⟨h', c1, q1, q2, q3, q4, q5, q6, q7, q8⟩ := HashCursor.remove_spec hat hinv e
    rw [hf] at q2
    cases q2
    obtain ⟨m', A', k1, k2, k3⟩ := removeCommon_rel r hn q1
    obtain ⟨i, as1, a, as2, ns1, x', ns2, p1, p2, p3, p4, p5, p6, p7, p8⟩ := k3 rfl
    have hii : i = c.index := by
      have hpl := hinv.place _ _ a2 x (by rw [e]; simp)
      unfold AxlHash.pos at p1
      split at p1
      · cases p1
      · cases p1
        exact hpl
    subst hii
    rw [e] at a2
    have hpw := HashCursor.pairwise_chain _ _ _ hinv.diff a2
    have heq : pre ++ x :: rest = ns1 ++ x' :: ns2 := Option.some.inj (a2.symm.trans p2)
    obtain ⟨rfl, rfl, rfl⟩ := split_at hinv.cons.symm p7 _ _ _ _ hpw heq
    have heq2 : pas ++ p :: as' = as1 ++ a :: as2 := Option.some.inj (a1.symm.trans p3)
    obtain ⟨rfl, e3⟩ := List.append_inj heq2 (a3.trans p5.symm)
    cases e3
    have hnd := r.nodup
    rw [List.nil_append] at hnd
    have hin : (pas ++ p :: as').Nodup := (List.pairwise_flatten.1 hnd).1 _ (List.mem_of_getElem? a1)
    have hseg : HSeg m'.mem nx as' rest none := by
      refine hseg_frame (fun b hb => p8 b ?_ ?_) g2
      · intro hb'
        exact (List.nodup_append.1 hin).2.2 b hb' b (List.mem_cons_of_mem _ hb) rfl
      · rintro rfl
        exact (List.nodup_cons.1 (List.nodup_append.1 hin).2.1).1 hb
    have hA' : A'[c.index]? = some (pas ++ as') := by
      rw [p4]
      exact List.getElem?_set_self (List.getElem?_eq_some_iff.1 a1).1
    have hlen' : A'.flatten.length ≤ n := by
      have := AxlHash.perm_set_flatten A' c.index (pas ++ as') (pas ++ p :: as') [p] hA' List.perm_middle
      rw [p4, List.set_set, set_self a1, ← p4] at this
      have := this.length_eq
      simp only [List.length_append, List.length_cons] at this
      omega
    have hrm : c.hash.remove n x.key = some (true, m') := by simp [MHash.remove, k1]
    have hrm' : c'.hash.remove x.key = some (true, h') := by simp [AxlHash.remove, q1]
    cases nx with
    | some q =>
      obtain ⟨as'', y, ns'', nx', rfl, rfl, g3, g4⟩ := hseg_cons hseg
      simp only [HashCursor.remove, e, hrm', Option.bind_eq_bind, Option.bind_some, ne_eq, reduceCtorEq, not_false_eq_true, if_true, Option.some.injEq] at hf
      subst hf
      refine ⟨{ c with hash := m', node := some q }, A', q :: as'', ?_, ⟨k2, q4.len, hi, hseg, fun _ => ⟨pas, pre, hA', ?_, p5⟩⟩, q4, hlen'⟩
      · simp [remove, hnode, g1, hrm]
      · show h'.table[c.index]? = _
        rw [q7]
        exact List.getElem?_set_self (List.getElem?_eq_some_iff.1 a2).1
    | none =>
      obtain ⟨rfl, rfl⟩ := hseg_nil hseg
      simp only [HashCursor.remove, e, hrm', Option.bind_eq_bind, Option.bind_some, ne_eq, not_true, if_false, hi] at hf
      have hsz := k2.size
      have hlt : c.index < c'.hash.table.length := (List.getElem?_eq_some_iff.1 a2).1
      have hlt2 : c.index ≤ m'.hashSize := by
        have h1 := q4.len
        rw [q7, List.length_set] at h1
        omega
      have sr := search_rel (c := { c with hash := m' }) (c' := ⟨h', [], (c.index : Int)⟩) (A := A') k2 q4.len
        (m'.hashSize - c.index) c.index (by show _ = m'.hashSize; omega)
      rcases sr with ⟨k1', -, k2'⟩ | ⟨p', j, bs, ns, k1', k2', k3', k4', k5', k6'⟩
      · obtain ⟨-, e2, -⟩ := k2' (h'.hashSize + 1) (by omega)
        rw [hnode] at k1'
        rw [e2] at hf
        cases hf
        exact ⟨{ c with hash := m', node := none, index := c.index + (m'.hashSize - c.index) }, A', [],
          by simp [remove, hnode, g1, hrm, k1'], ⟨k2, q4.len, rfl, rfl, fun h => absurd rfl h⟩, q4, hlen'⟩
      · obtain ⟨-, e2, -⟩ := k6' (h'.hashSize + 1) (by omega)
        rw [hnode] at k1'
        rw [e2] at hf
        cases hf
        exact ⟨{ c with hash := m', node := some p', index := j }, A', bs,
          by simp [remove, hnode, g1, hrm, k1'], ⟨k2, q4.len, rfl, k5', fun _ => ⟨[], [], k2', k3', rfl⟩⟩, q4, hlen'⟩

theorem removesAll_rel {c' : HashCursor κ δ φ} {h : AxlHash κ δ φ} (hr : HashCursor.RemovesAll c' h) {n : Nat} :
    ∀ {c : MCursor κ δ φ} {A : List (List Piece)} {as : List Piece}, CRel c c' A as → AxlHash.Inv c'.hash → A.flatten.length ≤ n →
      ∃ m A', RemovesAll n c m ∧ Rel m h A' [] ∧ A'.flatten.length ≤ n := by
  induction hr with
  | done h => intro c A as r _ hn; exact ⟨c.hash, A, .done (by rw [hasItem_rel r]; exact h), r.rel, hn⟩
  | item h1 h2 _ ih =>
    intro c A as r hi hn
    obtain ⟨c1, A1, as1, g1, g2, g3, g4⟩ := remove_rel r hi hn h1 h2
    obtain ⟨m, A', k1, k2⟩ := ih g2 g3 g4
    exact ⟨m, A', .item (by rw [hasItem_rel r]; exact h1) g1 k1, k2⟩

end MCursor
end Axl
