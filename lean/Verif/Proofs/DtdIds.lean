import Verif.Spec.Dtd
import Verif.Proofs.Ns
import Verif.Props.Attr

/-! # The table of identifiers -/

namespace Axl.Dtd
open AxlHash Spec.Map

abbrev Keyed := AxlHash (List Char) (Option (List Char)) Unit

def someNode (n : HashNode (List Char) (Option (List Char)) Unit) : HashNode (Option (List Char)) (Option (List Char)) Unit :=
  ⟨some n.key, n.keyDestroy, n.data, n.dataDestroy⟩

/-- The same table with keys that are never NULL. -/
structure Sim (h : Keyed) (g : Ids) : Prop where
  hash  : h.hash = fun s => hashString (some s)
  equal : h.equal = fun a b => hashEqualString (some a) (some b)
  hash'  : g.hash = hashString
  equal' : g.equal = hashEqualString
  table : g.table = h.table.map (·.map someNode)
  items : g.items = h.items
  size  : g.hashSize = h.hashSize
  step  : g.step = h.step

theorem Sim.pos {h : Keyed} {g : Ids} (S : Sim h g) (k : List Char) : g.pos (some k) = h.pos k := by
  unfold AxlHash.pos
  rw [S.size, S.hash, S.hash']

theorem lookupChain_some (k : List Char) : ∀ c : List (HashNode (List Char) (Option (List Char)) Unit),
    lookupChain hashEqualString (some k) (c.map someNode) =
      (lookupChain (fun a b => hashEqualString (some a) (some b)) k c).map someNode
  | [] => rfl
  | n :: c => by
    rw [List.map_cons, lookupChain, lookupChain, lookupChain_some k c]
    show (if hashEqualString (some n.key) (some k) = true then _ else _) = _
    split <;> rfl

theorem Sim.lookup {h : Keyed} {g : Ids} (S : Sim h g) (k : List Char) :
    g.lookup (some k) = (h.lookup k).map (·.map someNode) := by
  unfold AxlHash.lookup
  rw [S.size, S.pos, S.table, S.equal, S.equal']
  split
  · rfl
  · cases h.pos k with
    | none => rfl
    | some p =>
      simp only [Option.bind_eq_bind, Option.bind_some, List.getElem?_map]
      cases h.table[p]? with
      | none => rfl
      | some c => simp [lookupChain_some]

theorem Sim.exists {h : Keyed} {g : Ids} (S : Sim h g) (k : List Char) : g.exists (some k) = h.exists k := by
  unfold AxlHash.exists
  rw [S.lookup]
  cases h.lookup k with
  | none => rfl
  | some r => cases r <;> rfl

theorem Sim.insertNode {h h1 : Keyed} {g : Ids} (S : Sim h g) (n : HashNode (List Char) (Option (List Char)) Unit) (b : Bool)
    (e : h.insertNode n.key n b = some h1) : ∃ g1, g.insertNode (some n.key) (someNode n) b = some g1 ∧ Sim h1 g1 := by
  unfold AxlHash.insertNode at e ⊢
  rw [S.pos, S.table]
  cases hp : h.pos n.key with
  | none => rw [hp] at e; cases e
  | some p =>
    rw [hp] at e
    simp only [Option.bind_eq_bind, Option.bind_some, List.getElem?_map] at e ⊢
    cases hc : h.table[p]? with
    | none => rw [hc] at e; cases e
    | some c =>
      rw [hc] at e
      simp only [Option.bind_some, Option.some.injEq, Option.map_some] at e ⊢
      subst e
      refine ⟨_, rfl, ⟨S.hash, S.equal, S.hash', S.equal', ?_, ?_, S.size, S.step⟩⟩
      · rw [List.map_set]
        rfl
      · show (if b = true then g.items + 1 else g.items) = if b = true then h.items + 1 else h.items
        rw [S.items]

theorem Sim.rehash : ∀ (ns : List (HashNode (List Char) (Option (List Char)) Unit)) {h h1 : Keyed} {g : Ids}, Sim h g →
    h.rehash ns = some h1 → ∃ g1, g.rehash (ns.map someNode) = some g1 ∧ Sim h1 g1
  | [], h, h1, g, S, e => by
    rw [AxlHash.rehash] at e
    injection e with e
    subst e
    exact ⟨g, rfl, S⟩
  | n :: ns, h, h1, g, S, e => by
    rw [AxlHash.rehash] at e
    cases hi : h.insertNode n.key n false with
    | none => rw [hi] at e; cases e
    | some h2 =>
      rw [hi] at e
      obtain ⟨g2, e2, S2⟩ := S.insertNode n false hi
      obtain ⟨g1, e1, S1⟩ := Sim.rehash ns S2 e
      refine ⟨g1, ?_, S1⟩
      rw [List.map_cons, AxlHash.rehash]
      have e2' : g.insertNode (someNode n).key (someNode n) false = some g2 := e2
      rw [e2']
      exact e1

theorem flatten_some (t : List (List (HashNode (List Char) (Option (List Char)) Unit))) :
    (t.map (·.map someNode)).flatten = t.flatten.map someNode := by
  rw [List.map_flatten]

theorem Sim.grow {h h1 : Keyed} {g : Ids} (S : Sim h g) (e : h.grow = some h1) : ∃ g1, g.grow = some g1 ∧ Sim h1 g1 := by
  unfold AxlHash.grow at e ⊢
  dsimp only at e ⊢
  rw [S.table, S.size, S.step, flatten_some]
  refine Sim.rehash (h := { h with hashSize := h.hashSize + h.step, table := List.replicate (h.hashSize + h.step) [] }) _
    ⟨S.hash, S.equal, S.hash', S.equal', ?_, S.items, rfl, rfl⟩ e
  simp

theorem Sim.insert {h h1 : Keyed} {g : Ids} (S : Sim h g) {k : List Char} {d : Option (Option (List Char))} (hn : h.exists k = some false)
    (e : h.insert k d = some h1) : ∃ g1, g.insert (some k) d = some g1 ∧ Sim h1 g1 := by
  unfold AxlHash.insert AxlHash.insertFull at e ⊢
  dsimp only at e ⊢
  rw [S.size]
  split at e
  · rw [if_pos ‹_›]
    rw [S.step]
    refine Sim.insertNode (h := { h with table := List.replicate h.step [], hashSize := h.step })
      (g := { g with table := List.replicate h.step [], hashSize := h.step, step := h.step })
      ⟨S.hash, S.equal, S.hash', S.equal', ?_, S.items, rfl, rfl⟩ ⟨k, none, d, none⟩ true e
    simp
  · rw [if_neg ‹_›, S.lookup]
    unfold AxlHash.exists at hn
    cases hl : h.lookup k with
    | none => rw [hl] at e; cases e
    | some r =>
      rw [hl] at e hn
      cases r with
      | some n => simp at hn
      | none =>
        simp only [Option.bind_eq_bind, Option.bind_some, Option.map_some, Option.map_none] at e ⊢
        rw [S.items]
        split at e
        · rw [if_pos ‹_›]
          cases hg : h.grow with
          | none => rw [hg] at e; cases e
          | some h2 =>
            rw [hg] at e
            obtain ⟨g2, e2, S2⟩ := S.grow hg
            rw [e2]
            exact S2.insertNode ⟨k, none, d, none⟩ true e
        · rw [if_neg ‹_›]
          exact S.insertNode ⟨k, none, d, none⟩ true e

/-- The table holds exactly these identifiers. -/
def Holds (g : Ids) (ids : List (List Char)) : Prop :=
  ∃ (h : Keyed) (past : List (Op (List Char) (Option (List Char)) Unit)), Sim h g ∧
    Hist (fun s => hashString (some s)) (fun a b => hashEqualString (some a) (some b)) h past ∧
    ∀ k, (present (fun a b => hashEqualString (some a) (some b)) past k).isSome = true ↔ k ∈ ids

theorem holds_new : Holds newIds [] := by
  refine ⟨AxlHash.new (fun s => hashString (some s)) (fun a b => hashEqualString (some a) (some b)), [],
    ⟨rfl, rfl, rfl, rfl, rfl, rfl, rfl, rfl⟩, hist_new C09_string_functions_consistent.1 (by decide), ?_⟩
  simp [present]

theorem Holds.exists {g : Ids} {ids : List (List Char)} (H : Holds g ids) (k : List Char) :
    g.exists (some k) = some (decide (k ∈ ids)) := by
  obtain ⟨h, past, S, hh, hp⟩ := H
  rw [S.exists, hist_exists hh]
  congr 1
  rw [Bool.eq_iff_iff, hp k, decide_eq_true_eq]

theorem Holds.insert {g : Ids} {ids : List (List Char)} (H : Holds g ids) {k : List Char} (hk : k ∉ ids) (d : Option (Option (List Char))) :
    ∃ g1, g.insert (some k) d = some g1 ∧ Holds g1 (k :: ids) := by
  obtain ⟨h, past, S, hh, hp⟩ := H
  obtain ⟨h1, e, hh1⟩ := hist_insert hh ⟨k, none, d, none⟩
  have hx : h.exists k = some false := by
    rw [hist_exists hh]
    congr 1
    rw [← Bool.not_eq_true, hp k]
    exact hk
  obtain ⟨g1, e1, S1⟩ := S.insert (d := d) hx e
  refine ⟨g1, e1, h1, _, S1, hh1, fun j => ?_⟩
  rw [present]
  by_cases hj : hashEqualString (some k) (some j) = true
  · rw [if_pos hj]
    have := (C09_string_functions_consistent.2 k j).1 hj
    simp [this]
  · rw [if_neg hj, hp j, List.mem_cons]
    have : j ≠ k := fun e => hj ((C09_string_functions_consistent.2 k j).2 e.symm)
    simp [this]

end Axl.Dtd
