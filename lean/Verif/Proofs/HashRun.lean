/-
Histories of the hash model.
-/
import Verif.Proofs.Hash

namespace Axl
open Spec.Map
namespace AxlHash
variable {κ δ φ : Type} [NullKey κ]

/-- The hash after a history (newest first). -/
structure Hist (hash : κ → Nat) (eq : κ → κ → Bool) (h : AxlHash κ δ φ)
    (past : List (Op κ δ φ)) : Prop where
  inv : Inv h
  hash_eq : h.hash = hash
  equal_eq : h.equal = eq
  look : ∀ k, (h.table.flatten.find? fun n => eq n.key k).map toEntry = present eq past k
  ledger : ∃ ds : List (Entry κ δ φ),
    (h.table.flatten.map toEntry ++ ds ++ takenOut eq past).Perm (entered past) ∧
    (keyCalls h.log).Perm (ds.filterMap (Entry.keyCall NullKey.isNull)) ∧
    (dataCalls h.log).Perm (ds.filterMap Entry.dataCall)

theorem hist_new {hash : κ → Nat} {eq : κ → κ → Bool} (hc : Consistent hash eq) {step : Nat}
    (hs : 0 < step) : Hist hash eq (newFull hash eq step : AxlHash κ δ φ) [] := by
  refine ⟨⟨⟨hc, hs, rfl, ?_, ?_⟩, rfl, Nat.le_refl _⟩, rfl, rfl, ?_, [], ?_, ?_, ?_⟩
  · intro p c h; simp [newFull] at h
  · simp [newFull]
  · intro k; rfl
  · exact List.Perm.refl _
  · exact List.Perm.refl _
  · exact List.Perm.refl _

theorem keyCalls_append (a b : List (DestroyCall κ δ φ)) : keyCalls (a ++ b) = keyCalls a ++ keyCalls b :=
  List.filterMap_append
theorem dataCalls_append (a b : List (DestroyCall κ δ φ)) : dataCalls (a ++ b) = dataCalls a ++ dataCalls b :=
  List.filterMap_append

theorem keyCalls_destroyNode (n : HashNode κ δ φ) :
    keyCalls (destroyNode n) = (Entry.keyCall NullKey.isNull (toEntry n)).toList := by
  obtain ⟨k, kd, d, dd⟩ := n
  simp only [keyCalls, destroyNode, cleanupCalls, Entry.keyCall, toEntry]
  by_cases hk : NullKey.isNull k = true <;> cases kd <;> cases d <;> cases dd <;> simp [hk]

theorem dataCalls_destroyNode (n : HashNode κ δ φ) :
    dataCalls (destroyNode n) = (Entry.dataCall (toEntry n)).toList := by
  obtain ⟨k, kd, d, dd⟩ := n
  simp only [dataCalls, destroyNode, cleanupCalls, Entry.dataCall, toEntry]
  by_cases hk : NullKey.isNull k = true <;> cases kd <;> cases d <;> cases dd <;> simp [hk]

theorem keyCalls_cleanup (n : HashNode κ δ φ) :
    keyCalls (cleanupCalls n.key n.keyDestroy n.data n.dataDestroy) = (Entry.keyCall NullKey.isNull (toEntry n)).toList := by
  obtain ⟨k, kd, d, dd⟩ := n
  simp only [keyCalls, destroyNode, cleanupCalls, Entry.keyCall, toEntry]
  by_cases hk : NullKey.isNull k = true <;> cases kd <;> cases d <;> cases dd <;> simp [hk]

theorem dataCalls_cleanup (n : HashNode κ δ φ) :
    dataCalls (cleanupCalls n.key n.keyDestroy n.data n.dataDestroy) = (Entry.dataCall (toEntry n)).toList := by
  obtain ⟨k, kd, d, dd⟩ := n
  simp only [dataCalls, destroyNode, cleanupCalls, Entry.dataCall, toEntry]
  by_cases hk : NullKey.isNull k = true <;> cases kd <;> cases d <;> cases dd <;> simp [hk]

theorem ledger_call {α β : Type} (f : α → Option β) (a : List β) (ds : List α) (n : α)
    (h : a.Perm (ds.filterMap f)) : (a ++ (f n).toList).Perm ((n :: ds).filterMap f) := by
  rw [List.filterMap_cons]
  cases hf : f n with
  | none => simpa using h
  | some b => exact List.perm_append_comm.trans (h.cons b)

theorem hist_insert {hash : κ → Nat} {eq : κ → κ → Bool} {h : AxlHash κ δ φ}
    {past : List (Op κ δ φ)} (hh : Hist hash eq h past) (e : Entry κ δ φ) :
    ∃ h', h.insertFull e.key e.keyDestroy e.data e.dataDestroy = some h' ∧ Hist hash eq h' (.insert e :: past) := by
  obtain ⟨hi, h1, h2, hl, ds, hp, hk, hdc⟩ := hh
  subst h1 h2
  cases hf : h.table.flatten.find? (fun n => h.equal n.key e.key) with
  | none =>
    obtain ⟨h', he, hi', hs, hperm, hlog⟩ := insertFull_new hi (ofEntry e) hf
    refine ⟨h', he, hi', hs.1, hs.2.1, ?_, ds, ?_, ?_, ?_⟩
    · intro k
      rw [← hs.2.1, find?_perm hi'.cons hperm hi'.diff, hs.2.1, List.find?_cons]
      simp only [present]
      show Option.map toEntry (match h.equal e.key k with | true => some (ofEntry e) | false => _) = _
      cases h.equal e.key k with
      | true => rfl
      | false => simpa using hl k
    · simp only [takenOut, entered]
      refine ((((hperm.map toEntry).append_right ds).append_right _).trans ?_)
      simpa using hp
    · rw [hlog]; exact hk
    · rw [hlog]; exact hdc
  | some n =>
    obtain ⟨h', rest, he, hi', hs, hp1, hp2, hlog⟩ := insertFull_old hi (ofEntry e) n hf
    have hne : h.equal n.key e.key = true := List.find?_some (p := fun n : HashNode κ δ φ => h.equal n.key e.key) hf
    refine ⟨h', he, hi', hs.1, hs.2.1, ?_, toEntry n :: ds, ?_, ?_, ?_⟩
    · intro k
      rw [← hs.2.1, find?_perm hi'.cons hp2 hi'.diff, hs.2.1, List.find?_cons]
      simp only [present]
      show Option.map toEntry (match h.equal e.key k with | true => some (ofEntry e) | false => _) = _
      cases hek : h.equal e.key k with
      | true => rfl
      | false =>
        simp only [Bool.false_eq_true, if_false]
        rw [← hl k, find?_perm hi.cons hp1 hi.diff, List.find?_cons]
        cases hnk : h.equal n.key k with
        | false => rfl
        | true =>
          rw [hi.cons.trans _ _ _ (hi.cons.symm _ _ hne) hnk] at hek; cases hek
    · simp only [takenOut, entered]
      have h3 := ((hp1.symm.map toEntry).append_right ds).append_right (takenOut h.equal past)
      have h4 := h3.trans hp
      have h5 := ((hp2.map toEntry).append_right (toEntry n :: ds)).append_right (takenOut h.equal past)
      refine h5.trans ?_
      simp only [List.map_cons, List.cons_append, List.append_assoc, toEntry_ofEntry] at h4 ⊢
      refine List.Perm.cons _ (List.Perm.trans ?_ h4)
      exact List.perm_middle
    · rw [hlog, keyCalls_append, keyCalls_destroyNode]; exact ledger_call _ _ _ _ hk
    · rw [hlog, dataCalls_append, dataCalls_destroyNode]; exact ledger_call _ _ _ _ hdc

/-- What the search finds for a key equal to one that is absent. -/
theorem find?_none_congr {hash : κ → Nat} {eq : κ → κ → Bool} (hc : Consistent hash eq)
    {l : List (HashNode κ δ φ)} {k k' : κ} (hk : eq k' k = true)
    (hn : ∀ m ∈ l, eq m.key k' = false) : l.find? (fun n => eq n.key k) = none := by
  rw [List.find?_eq_none]
  intro m hm h
  have h' : eq m.key k = true := h
  have := hc.trans _ _ _ h' (hc.symm _ _ hk)
  rw [hn m hm] at this; cases this

theorem hist_remove {hash : κ → Nat} {eq : κ → κ → Bool} {h : AxlHash κ δ φ}
    {past : List (Op κ δ φ)} (hh : Hist hash eq h past) (k : κ) (r d : Bool) :
    ∃ h', h.removeCommon k r d = some ((present eq past k).isSome,
        (match present eq past k with
         | some e => if d then ⟨some e.key, e.keyDestroy, e.data, e.dataDestroy⟩ else ⟨none, none, none, none⟩
         | none => ⟨none, none, none, none⟩), h') ∧
      Hist hash eq h' ((if d then .removeDeferred k else if r then .remove k else .delete k) :: past) := by
  obtain ⟨hi, h1, h2, hl, ds, hp, hk, hdc⟩ := hh
  subst h1 h2
  have hpk := hl k
  cases hf : h.table.flatten.find? (fun n => h.equal n.key k) with
  | none =>
    rw [hf] at hpk
    simp only [Option.map_none] at hpk
    rw [← hpk]
    refine ⟨h, removeCommon_none hi.toTInv k r d hf, hi, rfl, rfl, ?_, ds, ?_, hk, hdc⟩
    · intro k'
      have : (h.table.flatten.find? fun n => h.equal n.key k').map toEntry =
          if h.equal k k' then none else present h.equal past k' := by
        split
        · next hkk => rw [find?_none_congr hi.cons hkk (find?_differ hf)]; rfl
        · exact hl k'
      rw [this]
      cases d <;> cases r <;> rfl
    · cases d <;> cases r <;> simpa [takenOut, entered, ← hpk] using hp
  | some n =>
    rw [hf] at hpk
    simp only [Option.map_some] at hpk
    obtain ⟨h', he, hi', hs, hperm, hlog, -, -⟩ := removeCommon_some hi k r d n hf
    have hnk : h.equal n.key k = true := List.find?_some (p := fun n : HashNode κ δ φ => h.equal n.key k) hf
    have hdiff := (List.Perm.pairwise_iff (fun {a b} hab => differ_symm hi.cons a b hab) hperm).1 hi.diff
    rw [List.pairwise_cons] at hdiff
    have hlook : ∀ k', (h'.table.flatten.find? fun n => h.equal n.key k').map toEntry =
          if h.equal k k' then none else present h.equal past k' := by
      intro k'
      split
      · next hkk =>
        rw [find?_none_congr hi.cons (hi.cons.trans _ _ _ hnk hkk)]
        · rfl
        · intro m hm; exact differ_symm hi.cons _ _ (hdiff.1 m hm)
      · next hkk =>
        rw [← hl k', find?_perm hi.cons hperm hi.diff, List.find?_cons]
        cases hnk' : h.equal n.key k' with
        | false => rfl
        | true => exact absurd (hi.cons.trans _ _ _ (hi.cons.symm _ _ hnk) hnk') hkk
    rw [← hpk]
    have h3 := ((hperm.symm.map toEntry).append_right ds).append_right (takenOut h.equal past)
    have h4 := h3.trans hp
    simp only [List.map_cons, List.cons_append] at h4
    refine ⟨h', ?_, hi', hs.1, hs.2.1, ?_, ?_⟩
    · rw [he]; cases d <;> rfl
    · intro k'; rw [hlook k']; cases d <;> cases r <;> rfl
    · cases d with
      | true =>
        refine ⟨ds, ?_, by simpa [hlog] using hk, by simpa [hlog] using hdc⟩
        simp only [if_true, takenOut, entered, ← hpk, Option.toList_some]
        refine List.Perm.trans ?_ h4
        exact List.perm_middle
      | false =>
        cases r with
        | true =>
          refine ⟨toEntry n :: ds, ?_, ?_, ?_⟩
          · simp only [takenOut, entered, if_true, Bool.false_eq_true, if_false]
            refine List.Perm.trans ?_ h4
            rw [List.append_assoc, List.append_assoc, List.cons_append]
            exact List.perm_middle
          · rw [hlog]; simp only [Bool.not_false, Bool.and_self, if_true]
            rw [keyCalls_append, keyCalls_destroyNode]; exact ledger_call _ _ _ _ hk
          · rw [hlog]; simp only [Bool.not_false, Bool.and_self, if_true]
            rw [dataCalls_append, dataCalls_destroyNode]; exact ledger_call _ _ _ _ hdc
        | false =>
          refine ⟨ds, ?_, by simpa [hlog] using hk, by simpa [hlog] using hdc⟩
          simp only [Bool.false_eq_true, if_false, takenOut, entered, ← hpk, Option.toList_some]
          refine List.Perm.trans ?_ h4
          exact List.perm_middle

theorem hist_exec {hash : κ → Nat} {eq : κ → κ → Bool} {h : AxlHash κ δ φ}
    {past : List (Op κ δ φ)} (hh : Hist hash eq h past) (op : Op κ δ φ) :
    ∃ h', h.exec op = some h' ∧ Hist hash eq h' (op :: past) := by
  cases op with
  | insert e => exact hist_insert hh e
  | remove k =>
    obtain ⟨h', he, hh'⟩ := hist_remove hh k true false
    exact ⟨h', by simp [exec, AxlHash.remove, he], hh'⟩
  | delete k =>
    obtain ⟨h', he, hh'⟩ := hist_remove hh k false false
    exact ⟨h', by simp [exec, AxlHash.delete, he], hh'⟩
  | removeDeferred k =>
    obtain ⟨h', he, hh'⟩ := hist_remove hh k true true
    exact ⟨h', by simp [exec, AxlHash.removeDeferred, he], hh'⟩

theorem hist_run {hash : κ → Nat} {eq : κ → κ → Bool} : ∀ (ops : List (Op κ δ φ))
    {h : AxlHash κ δ φ} {past : List (Op κ δ φ)}, Hist hash eq h past →
    ∃ h', h.run ops = some h' ∧ Hist hash eq h' (ops.reverse ++ past)
  | [], h, past, hh => ⟨h, rfl, hh⟩
  | op :: ops, h, past, hh => by
    obtain ⟨h1, he, hh1⟩ := hist_exec hh op
    obtain ⟨h2, he2, hh2⟩ := hist_run ops hh1
    exact ⟨h2, by simp [run, he, he2], by simpa using hh2⟩

theorem hist_get {hash : κ → Nat} {eq : κ → κ → Bool} {h : AxlHash κ δ φ}
    {past : List (Op κ δ φ)} (hh : Hist hash eq h past) (k : κ) :
    h.get k = some ((present eq past k).bind (·.data)) := by
  obtain ⟨hi, h1, h2, hl, -⟩ := hh
  subst h1 h2
  rw [← hl k]
  unfold get
  split
  · next h0 =>
    have := hi.items
    rw [h0] at this
    rw [List.eq_nil_of_length_eq_zero this.symm]; rfl
  · rw [lookup_spec hi.toTInv]
    cases h.table.flatten.find? (fun n => h.equal n.key k) <;> rfl

theorem hist_exists {hash : κ → Nat} {eq : κ → κ → Bool} {h : AxlHash κ δ φ}
    {past : List (Op κ δ φ)} (hh : Hist hash eq h past) (k : κ) :
    h.exists k = some (present eq past k).isSome := by
  obtain ⟨hi, h1, h2, hl, -⟩ := hh
  subst h1 h2
  rw [← hl k, Option.isSome_map, AxlHash.exists, lookup_spec hi.toTInv]
  rfl

theorem hist_mem {hash : κ → Nat} {eq : κ → κ → Bool} {h : AxlHash κ δ φ}
    {past : List (Op κ δ φ)} (hh : Hist hash eq h past) (n : HashNode κ δ φ) :
    n ∈ h.table.flatten ↔ present eq past n.key = some (toEntry n) := by
  obtain ⟨hi, h1, h2, hl, -⟩ := hh
  subst h1 h2
  rw [← hl n.key]
  constructor
  · intro hm
    obtain ⟨l, r, hlr⟩ := List.append_of_mem hm
    have hp : h.table.flatten.Perm (n :: (l ++ r)) := by rw [hlr]; exact List.perm_middle
    rw [find?_perm hi.cons hp hi.diff, List.find?_cons, hi.cons.refl]; rfl
  · intro he
    rw [Option.map_eq_some_iff] at he
    obtain ⟨m, hm, hme⟩ := he
    have : m = n := by rw [← ofEntry_toEntry m, hme, ofEntry_toEntry]
    subst this
    exact List.mem_of_find?_eq_some hm

theorem foreachChain_spec (stop : κ → Option δ → Bool) : ∀ c : List (HashNode κ δ φ),
    (foreachChain stop c).1 = c.any (fun n => stop n.key n.data) ∧
    ((foreachChain stop c).1 = false → (foreachChain stop c).2 = c) ∧
    (foreachChain stop c).2 = (c.takeWhile fun n => !stop n.key n.data) ++ (c.find? fun n => stop n.key n.data).toList
  | [] => ⟨rfl, fun _ => rfl, rfl⟩
  | n :: c => by
    obtain ⟨h1, h2, h3⟩ := foreachChain_spec stop c
    unfold foreachChain
    cases hs : stop n.key n.data with
    | true => simp [hs]
    | false =>
      simp only [Bool.false_eq_true, if_false, List.any_cons, hs, Bool.false_or, List.takeWhile_cons,
        Bool.not_false, if_true, List.find?_cons, List.cons_append]
      exact ⟨h1, fun h => by rw [h2 h], by rw [h3]⟩

theorem takeWhile_all {α : Type} (p : α → Bool) : ∀ l : List α, l.any p = false → l.takeWhile (fun a => !p a) = l
  | [], _ => rfl
  | a :: l, h => by
    simp only [List.any_cons, Bool.or_eq_false_iff] at h
    simp [h.1, takeWhile_all p l h.2]

theorem takeWhile_append_any {α : Type} (p : α → Bool) (a b : List α) :
    ((a ++ b).takeWhile fun x => !p x) ++ ((a ++ b).find? p).toList =
    if a.any p then (a.takeWhile fun x => !p x) ++ (a.find? p).toList
    else a ++ ((b.takeWhile fun x => !p x) ++ (b.find? p).toList) := by
  induction a with
  | nil => simp
  | cons x a ih =>
    cases hx : p x with
    | true => simp [hx]
    | false =>
      simp only [List.cons_append, List.takeWhile_cons, hx, Bool.not_false, if_true, List.find?_cons,
        List.any_cons, Bool.false_or, ih]
      split <;> rfl

theorem foreachTable_spec (table : List (List (HashNode κ δ φ))) (stop : κ → Option δ → Bool) :
    ∀ (fuel it : Nat), it ≤ table.length → table.length < fuel + it →
    foreachTable table stop table.length fuel it =
      some (((table.drop it).flatten.takeWhile fun n => !stop n.key n.data) ++
        ((table.drop it).flatten.find? fun n => stop n.key n.data).toList)
  | 0, it, h1, h2 => by omega
  | fuel + 1, it, h1, h2 => by
    unfold foreachTable
    split
    · next hlt =>
      rw [List.drop_eq_getElem_cons hlt, List.flatten_cons, takeWhile_append_any,
        List.getElem?_eq_getElem hlt]
      obtain ⟨g1, g2, g3⟩ := foreachChain_spec stop table[it]
      simp only [Option.bind_eq_bind, Option.bind_some]
      rw [foreachTable_spec table stop fuel (it + 1) (by omega) (by omega)]
      cases hst : (foreachChain stop table[it]).1 with
      | true => rw [hst] at g1; rw [← g1]; simp [g3]
      | false => rw [hst] at g1; rw [← g1]; simp [g2 hst]
    · next hlt =>
      have : table.drop it = [] := List.drop_eq_nil_of_le (by omega)
      rw [this]; rfl

end AxlHash
end Axl

namespace Axl
open Spec.Map
namespace AxlHash
variable {κ δ φ : Type} [NullKey κ]

theorem hist_lists {hash : κ → Nat} {eq : κ → κ → Bool} {h : AxlHash κ δ φ}
    {past : List (Op κ δ φ)} (hh : Hist hash eq h past) :
    Lists eq past (h.table.flatten.map toEntry) := by
  refine ⟨fun e => ?_, ?_⟩
  · rw [← toEntry_ofEntry e]
    have := hist_mem hh (ofEntry e)
    rw [List.mem_map]
    constructor
    · rintro ⟨n, hn, he⟩
      have : n = ofEntry e := by rw [← ofEntry_toEntry n, he]; rfl
      subst this; exact (hist_mem hh _).1 hn
    · intro hp; exact ⟨ofEntry e, (hist_mem hh _).2 hp, rfl⟩
  · rw [List.pairwise_map]
    have := hh.inv.diff
    rw [hh.equal_eq] at this
    exact this

theorem hist_foreach {hash : κ → Nat} {eq : κ → κ → Bool} {h : AxlHash κ δ φ}
    {past : List (Op κ δ φ)} (hh : Hist hash eq h past) (stop : κ → Option δ → Bool) :
    h.foreach stop = some (((h.table.flatten.takeWhile fun n => !stop n.key n.data) ++
        (h.table.flatten.find? fun n => stop n.key n.data).toList).map fun n => (n.key, n.data)) := by
  have := foreachTable_spec h.table stop (h.hashSize + 1) 0 (by omega) (by rw [hh.inv.len]; omega)
  rw [hh.inv.len] at this
  simp only [foreach, this, Option.bind_eq_bind, Option.bind_some, List.drop_zero]

/-- The copy of a node. -/
def copied (kc : HashNode κ δ φ → κ) (dc : HashNode κ δ φ → Option δ) (n : HashNode κ δ φ) : HashNode κ δ φ :=
  ⟨kc n, n.keyDestroy, dc n, n.dataDestroy⟩

theorem copyItems_spec {h : AxlHash κ δ φ} (hi : Inv h) (h0 : h.hashSize ≠ 0)
    (kc : HashNode κ δ φ → κ) (dc : HashNode κ δ φ → Option δ)
    (hkc : ∀ n ∈ h.table.flatten, h.equal (kc n) n.key = true) :
    ∀ (ns done : List (HashNode κ δ φ)) (r : AxlHash κ δ φ), Inv r → SameCfg h r →
      r.table.flatten.Perm (done.map (copied kc dc)) → r.log = [] →
      (done ++ ns).Perm h.table.flatten →
      ∃ r', h.copyItems kc dc r (ns.map (·.key)) = some r' ∧ Inv r' ∧ SameCfg h r' ∧
        r'.table.flatten.Perm ((done ++ ns).map (copied kc dc)) ∧ r'.log = []
  | [], done, r, hr, hs, hp, hl, _ => ⟨r, rfl, hr, hs, by simpa using hp, hl⟩
  | n :: ns, done, r, hr, hs, hp, hl, hall => by
    have hnm : n ∈ h.table.flatten := hall.mem_iff.1 (by simp)
    have hdiff := (List.Perm.pairwise_iff (fun {a b} hab => differ_symm hi.cons a b hab) hall.symm).1 hi.diff
    -- the node is found again
    have hfind : h.table.flatten.find? (fun m => h.equal m.key n.key) = some n := by
      have hp2 : h.table.flatten.Perm (n :: (done ++ ns)) := hall.symm.trans List.perm_middle
      rw [find?_perm hi.cons hp2 hi.diff, List.find?_cons, hi.cons.refl]
    obtain ⟨hpos, c, hc, hfc⟩ := pos_spec hi.toTInv h0 n.key
    rw [hfind] at hfc
    have hkey : lookupChain h.equal n.key c = some n := by rw [lookupChain_eq_find?]; exact hfc.symm
    -- its copy is not there yet
    have hnew : r.table.flatten.find? (fun m => r.equal m.key (copied kc dc n).key) = none := by
      rw [List.find?_eq_none]
      intro m hm hme
      have hm' := hp.mem_iff.1 hm
      rw [List.mem_map] at hm'
      obtain ⟨m0, hm0, rfl⟩ := hm'
      rw [hs.2.1] at hme
      have e1 : h.equal (kc m0) (kc n) = true := hme
      have hm0' : m0 ∈ h.table.flatten := hall.mem_iff.1 (List.mem_append_left _ hm0)
      have e2 := hi.cons.trans _ _ _ (hi.cons.symm _ _ (hkc m0 hm0')) (hi.cons.trans _ _ _ e1 (hkc n hnm))
      rw [List.pairwise_append] at hdiff
      have := hdiff.2.2 m0 hm0 n (by simp)
      unfold Differ at this
      rw [e2] at this; cases this
    obtain ⟨r', hr', hir', hsr', hpr', hlr'⟩ := insertFull_new hr (copied kc dc n) hnew
    obtain ⟨r'', h1, h2, h3, h4, h5⟩ := copyItems_spec hi h0 kc dc hkc ns (done ++ [n]) r' hir' (hs.trans hsr')
      (by
        refine hpr'.trans ?_
        rw [List.map_append]
        refine (hp.cons _).trans ?_
        exact (List.perm_append_comm (l₁ := [copied kc dc n]))) (by rw [hlr', hl]) (by simpa using hall)
    refine ⟨r'', ?_, h2, h3, by simpa using h4, h5⟩
    have hstep : h.copyItem kc dc r n.key = some r' := by
      simp only [copyItem, hpos, hc, hkey, Option.bind_eq_bind, Option.bind_some]
      exact hr'
    simp only [List.map_cons, copyItems, hstep, Option.bind_eq_bind, Option.bind_some]
    exact h1

/-- The result of the two copy functions. -/
theorem copyCommon_spec {h : AxlHash κ δ φ} (hi : Inv h)
    (kc : HashNode κ δ φ → κ) (dc : HashNode κ δ φ → Option δ)
    (hkc : ∀ n ∈ h.table.flatten, h.equal (kc n) n.key = true) (rep : Option (Option φ × Option φ)) :
    ∃ r, h.copyCommon kc dc rep = some r ∧ Inv r ∧ SameCfg h r ∧ r.log = [] ∧
      r.table.flatten.Perm (h.table.flatten.map fun n =>
        match rep with
        | none => copied kc dc n
        | some (kd, dd) => { copied kc dc n with keyDestroy := kd, dataDestroy := dd }) := by
  have hinit : Inv ({ newFull h.hash h.equal h.items with step := h.step } : AxlHash κ δ φ) :=
    ⟨⟨hi.cons, hi.step, rfl, by intro p c hc; simp [newFull] at hc, by simp [newFull]⟩, rfl, Nat.le_refl _⟩
  unfold copyCommon
  split
  · next h0 =>
    refine ⟨_, rfl, hinit, ⟨rfl, rfl, rfl⟩, rfl, ?_⟩
    rw [table_nil hi.toTInv h0]; exact List.Perm.refl _
  · next h0 =>
    have hv := foreachTable_spec h.table (fun _ _ => false) (h.hashSize + 1) 0 (by omega) (by rw [hi.len]; omega)
    rw [hi.len] at hv
    rw [hv]
    have hall : ((h.table.flatten.takeWhile fun _ => !false) ++ (h.table.flatten.find? fun _ => false).toList) =
        h.table.flatten := by
      rw [List.find?_eq_none.2 (by simp)]
      rw [takeWhile_all (fun _ => false) _ (by simp)]
      simp
    simp only [List.drop_zero, hall, Option.bind_eq_bind, Option.bind_some]
    obtain ⟨r, h1, h2, h3, h4, h5⟩ := copyItems_spec hi h0 kc dc hkc h.table.flatten [] _ hinit ⟨rfl, rfl, rfl⟩
      (List.Perm.refl _) rfl (List.Perm.refl _)
    simp only [h1, Option.bind_some]
    cases rep with
    | none => exact ⟨r, rfl, h2, h3, h5, h4⟩
    | some q =>
      obtain ⟨kd, dd⟩ := q
      have hflat : ∀ (f : HashNode κ δ φ → HashNode κ δ φ) (t : List (List (HashNode κ δ φ))),
          (t.map fun c => c.map f).flatten = t.flatten.map f := by
        intro f t; rw [List.map_flatten]
      refine ⟨_, rfl, ⟨⟨h2.cons, h2.step, by simp [h2.len], ?_, ?_⟩, ?_, h2.room⟩, h3, h5, ?_⟩
      · intro p c hc n hn
        simp only [List.getElem?_map, Option.map_eq_some_iff] at hc
        obtain ⟨c0, hc0, rfl⟩ := hc
        rw [List.mem_map] at hn
        obtain ⟨m, hm, rfl⟩ := hn
        exact h2.place p c0 hc0 m hm
      · show List.Pairwise _ (List.flatten (List.map _ _))
        rw [hflat, List.pairwise_map]
        exact h2.diff
      · show r.items = _
        rw [h2.items]
        show _ = List.length (List.flatten (List.map _ _))
        rw [hflat, List.length_map]
      · show (List.flatten (List.map _ _)).Perm _
        rw [hflat]
        have := h4.map (fun n : HashNode κ δ φ => { n with keyDestroy := kd, dataDestroy := dd })
        simpa [List.map_map, Function.comp_def] using this

end AxlHash

namespace HashCursor
open AxlHash
variable {κ δ φ : Type} [NullKey κ]

/-- The cursor stands on a node of the table. -/
structure At (c : HashCursor κ δ φ) (p : Nat) (pre : List (HashNode κ δ φ)) : Prop where
  len : c.hash.table.length = c.hash.hashSize
  index : c.index = p
  chain : c.hash.table[p]? = some (pre ++ c.node)
  ne : c.node ≠ []

theorem bucket_nat (c : HashCursor κ δ φ) (i : Nat) : c.bucket i = c.hash.table[i]? := by
  have : ¬ ((i : Int) < 0) := by omega
  simp [bucket, this]

/-- The first chain with nodes from index `i` on. -/
theorem nextLoop_spec (c : HashCursor κ δ φ) (hlen : c.hash.table.length = c.hash.hashSize) :
    ∀ (fuel i : Nat), i ≤ c.hash.hashSize → c.hash.hashSize < fuel + i →
    (∃ c', c.nextLoop fuel i = some c' ∧ c'.node = [] ∧ c'.hash = c.hash ∧ (c.hash.table.drop i).flatten = [] ∧
      c.hasNextLoop fuel i = some false) ∨
    (∃ c' q, c.nextLoop fuel i = some c' ∧ c'.hash = c.hash ∧ At c' q [] ∧ i ≤ q ∧
      (c.hash.table.drop i).flatten = c'.node ++ (c.hash.table.drop (q + 1)).flatten ∧
      c.hasNextLoop fuel i = some true)
  | 0, i, h1, h2 => by omega
  | fuel + 1, i, h1, h2 => by
    by_cases hlt : i < c.hash.hashSize
    · have hlt' : (i : Int) < (c.hash.hashSize : Int) := by omega
      have hl2 : i < c.hash.table.length := by omega
      have hd := List.drop_eq_getElem_cons hl2
      unfold nextLoop hasNextLoop
      simp only [hlt', if_true, bucket_nat, List.getElem?_eq_getElem hl2, Option.bind_eq_bind, Option.bind_some]
      by_cases hne : c.hash.table[i] = []
      · have := nextLoop_spec c hlen fuel (i + 1) (by omega) (by omega)
        simp only [hne, ne_eq, not_true, if_false]
        rw [hd, List.flatten_cons, hne]
        simp only [List.nil_append]
        rcases this with h | ⟨c', q, g1, g2, g3, g4, g5⟩
        · exact .inl h
        · exact .inr ⟨c', q, g1, g2, g3, by omega, g5⟩
      · right
        simp only [ne_eq, hne, not_false_iff, if_true]
        refine ⟨_, i, rfl, rfl, ⟨hlen, rfl, ?_, hne⟩, Nat.le_refl _, ?_, trivial⟩
        · exact List.getElem?_eq_getElem hl2
        · rw [hd, List.flatten_cons]
    · left
      have hlt' : ¬ (i : Int) < (c.hash.hashSize : Int) := by omega
      unfold nextLoop hasNextLoop
      simp only [hlt', if_false]
      refine ⟨_, rfl, rfl, rfl, ?_, trivial⟩
      rw [List.drop_eq_nil_of_le (by omega)]; rfl

theorem next_spec {c : HashCursor κ δ φ} {p : Nat} {pre : List (HashNode κ δ φ)} (ha : At c p pre) :
    (∃ c', c.next = some c' ∧ c.hasNext = some false ∧ c'.node = [] ∧ c'.hash = c.hash ∧
      c.node.tail ++ (c.hash.table.drop (p + 1)).flatten = []) ∨
    (∃ c' q pre', c.next = some c' ∧ c.hasNext = some true ∧ c'.hash = c.hash ∧ At c' q pre' ∧
      c.node.tail ++ (c.hash.table.drop (p + 1)).flatten = c'.node ++ (c.hash.table.drop (q + 1)).flatten) := by
  have hp : p < c.hash.table.length := by
    have := ha.chain; rw [List.getElem?_eq_some_iff] at this; exact this.1
  have hlen := ha.len
  rcases hn : c.node with _ | ⟨n, _ | ⟨m, ms⟩⟩
  · exact absurd hn ha.ne
  · have hl := nextLoop_spec c ha.len (c.hash.hashSize + 1) (p + 1) (by omega) (by omega)
    have hcast : c.index + 1 = ((p + 1 : Nat) : Int) := by rw [ha.index]; omega
    by_cases hend : p + 1 = c.hash.hashSize
    · left
      have hnx : c.next = some { c with node := [], index := c.index + 1 } := by
        have : (c.hash.hashSize : Int) ≤ c.index + 1 := by rw [hcast]; omega
        simp [next, hn, this]
      have hfl : (c.hash.table.drop (p + 1)).flatten = [] := by
        rw [List.drop_eq_nil_of_le (by omega)]; rfl
      rcases hl with ⟨c', g1, g2, g3, g4, g5⟩ | ⟨c', q, g1, g2, g3, g4, g5, g6⟩
      · refine ⟨_, hnx, ?_, rfl, rfl, by simp [hfl]⟩
        simp only [hasNext, hn, hcast]; exact g5
      · rw [hfl] at g5
        have := List.append_eq_nil_iff.1 g5.symm
        exact absurd this.1 g3.ne
    · have hnx : c.next = c.nextLoop (c.hash.hashSize + 1) ((p + 1 : Nat) : Int) := by
        have : ¬ (c.hash.hashSize : Int) ≤ c.index + 1 := by rw [hcast]; omega
        simp only [next, hn]; rw [if_neg this, hcast]
      have hhn : c.hasNext = c.hasNextLoop (c.hash.hashSize + 1) ((p + 1 : Nat) : Int) := by
        simp only [hasNext, hn, hcast]
      rcases hl with ⟨c', g1, g2, g3, g4, g5⟩ | ⟨c', q, g1, g2, g3, g4, g5, g6⟩
      · exact .inl ⟨c', hnx.trans g1, hhn.trans g5, g2, g3, by simp [g4]⟩
      · exact .inr ⟨c', q, [], hnx.trans g1, hhn.trans g6, g2, g3, by simp [g5]⟩
  · right
    refine ⟨{ c with node := m :: ms }, p, pre ++ [n], by simp [next, hn], by simp [hasNext, hn], rfl,
      ⟨ha.len, ha.index, ?_, by simp⟩, by simp⟩
    have := ha.chain
    rw [hn] at this
    simpa using this

/-- What is left to visit from a position. -/
theorem reads_spec : ∀ (k : Nat) {c : HashCursor κ δ φ} {p : Nat} {pre : List (HashNode κ δ φ)}, At c p pre →
    (c.node ++ (c.hash.table.drop (p + 1)).flatten).length = k →
    Reads c ((c.node ++ (c.hash.table.drop (p + 1)).flatten).map fun n => (some n.key, n.data))
  | 0, c, p, pre, ha, hk => by
    have := List.eq_nil_of_length_eq_zero hk
    exact absurd (List.append_eq_nil_iff.1 this).1 ha.ne
  | k + 1, c, p, pre, ha, hk => by
    rcases hn : c.node with _ | ⟨n, ns⟩
    · exact absurd hn ha.ne
    have hhas : c.hasItem = true := by simp [hasItem, hn]
    have hkey : c.getKey = some n.key := by simp [getKey, hn]
    have hval : c.getValue = n.data := by simp [getValue, hn]
    have hsp := next_spec ha
    rw [hn] at hsp hk
    simp only [List.tail_cons] at hsp
    simp only [List.cons_append, List.map_cons]
    rw [← hkey, ← hval]
    rcases hsp with ⟨c', g1, g2, g3, g4, g5⟩ | ⟨c', q, pre', g1, g2, g3, g4, g5⟩
    · rw [g5]
      exact .item hhas (by simpa using g2) g1 (.done (by simp [hasItem, g3]))
    · have ih := reads_spec k g4 (by
        have := congrArg List.length g5
        rw [g3]; simp only [List.cons_append, List.length_cons] at hk
        omega)
      rw [g3, ← g5] at ih
      refine .item hhas ?_ g1 ih
      rw [g2]
      have : ns ++ (c.hash.table.drop (p + 1)).flatten ≠ [] := by
        rw [g5]; intro h; exact g4.ne (List.append_eq_nil_iff.1 h).1
      simp only [List.isEmpty_map]
      cases hx : ns ++ (c.hash.table.drop (p + 1)).flatten with
      | nil => exact absurd hx this
      | cons _ _ => rfl

theorem initFirst_spec (c : HashCursor κ δ φ) (hlen : c.hash.table.length = c.hash.hashSize) :
    ∀ (fuel i : Nat), i ≤ c.hash.hashSize → c.hash.hashSize < fuel + i →
    (∃ j, c.initFirstLoop fuel i = some ([], j) ∧ (c.hash.table.drop i).flatten = []) ∨
    (∃ node, ∃ q : Nat, c.initFirstLoop fuel i = some (node, ((q : Nat) : Int)) ∧ At { c with node := node, index := ((q : Nat) : Int) } q [] ∧
      (c.hash.table.drop i).flatten = node ++ (c.hash.table.drop (q + 1)).flatten)
  | 0, i, h1, h2 => by omega
  | fuel + 1, i, h1, h2 => by
    by_cases hlt : i < c.hash.hashSize
    · have hlt' : (i : Int) < (c.hash.hashSize : Int) := by omega
      have hl2 : i < c.hash.table.length := by omega
      have hd := List.drop_eq_getElem_cons hl2
      unfold initFirstLoop
      simp only [hlt', if_true, bucket_nat, List.getElem?_eq_getElem hl2, Option.bind_eq_bind, Option.bind_some]
      by_cases hne : c.hash.table[i] = []
      · have := initFirst_spec c hlen fuel (i + 1) (by omega) (by omega)
        simp only [hne, ne_eq, not_true, if_false]
        rw [hd, List.flatten_cons, hne]
        simp only [List.nil_append]
        exact this
      · right
        simp only [ne_eq, hne, not_false_iff, if_true]
        refine ⟨_, i, rfl, ⟨hlen, rfl, ?_, hne⟩, ?_⟩
        · exact List.getElem?_eq_getElem hl2
        · rw [hd, List.flatten_cons]
    · left
      have hlt' : ¬ (i : Int) < (c.hash.hashSize : Int) := by omega
      unfold initFirstLoop
      simp only [hlt', if_false]
      refine ⟨_, rfl, ?_⟩
      rw [List.drop_eq_nil_of_le (by omega)]; rfl

/-- `axl_hash_cursor_first`, whatever the cursor was. -/
theorem first_spec (c : HashCursor κ δ φ) (hlen : c.hash.table.length = c.hash.hashSize) :
    (c.hash.table.flatten = [] ∧ c.first = some { c with index := 0 }) ∨
    (∃ c' q, c.first = some c' ∧ c'.hash = c.hash ∧ At c' q [] ∧
      c.hash.table.flatten = c'.node ++ (c.hash.table.drop (q + 1)).flatten) := by
  rcases initFirst_spec c hlen (c.hash.hashSize + 1) 0 (by omega) (by omega) with ⟨j, h1, h2⟩ | ⟨node, q, h1, h2, h3⟩
  · left
    refine ⟨by simpa using h2, ?_⟩
    have h1' : c.initFirstLoop (c.hash.hashSize + 1) 0 = some ([], j) := h1
    simp [first, h1']
  · right
    have h1' : c.initFirstLoop (c.hash.hashSize + 1) 0 = some (node, ((q : Nat) : Int)) := h1
    have hne : node ≠ [] := h2.ne
    exact ⟨{ c with node := node, index := ((q : Nat) : Int) }, q, by simp [first, h1', hne], rfl, h2, by simpa using h3⟩

/-- A chain suffix of one node at the end. -/
theorem lastNode_spec : ∀ c : List (HashNode κ δ φ), c ≠ [] → ∃ pre n, c = pre ++ [n] ∧ lastNode c = [n]
  | [], h => absurd rfl h
  | [n], _ => ⟨[], n, rfl, rfl⟩
  | n :: m :: ms, _ => by
    obtain ⟨pre, x, h1, h2⟩ := lastNode_spec (m :: ms) (by simp)
    exact ⟨n :: pre, x, by rw [h1]; rfl, by simpa [lastNode] using h2⟩

theorem initLast_spec (c : HashCursor κ δ φ) (hlen : c.hash.table.length = c.hash.hashSize) :
    ∀ (fuel i : Nat), i < c.hash.hashSize → i < fuel → (c.hash.table.drop (i + 1)).flatten = [] →
    (∃ j, c.initLastLoop fuel i = some ([], j) ∧ (c.hash.table.drop 1).flatten = []) ∨
    (∃ n, ∃ q : Nat, ∃ pre, c.initLastLoop fuel i = some ([n], ((q : Nat) : Int)) ∧ 0 < q ∧
      At { c with node := [n], index := ((q : Nat) : Int) } q pre ∧ (c.hash.table.drop (q + 1)).flatten = [])
  | 0, i, h1, h2, _ => by omega
  | fuel + 1, i, h1, h2, hz => by
    by_cases hi : 0 < i
    · have hi' : (0 : Int) < (i : Int) := by omega
      have hl2 : i < c.hash.table.length := by omega
      have hd := List.drop_eq_getElem_cons hl2
      unfold initLastLoop
      simp only [hi', if_true, bucket_nat, List.getElem?_eq_getElem hl2, Option.bind_eq_bind, Option.bind_some]
      by_cases hne : c.hash.table[i] = []
      · simp only [hne, ne_eq, not_true, if_false]
        have hcast : (i : Int) - 1 = ((i - 1 : Nat) : Int) := by omega
        rw [hcast]
        refine initLast_spec c hlen fuel (i - 1) (by omega) (by omega) ?_
        rw [Nat.sub_add_cancel hi, hd, List.flatten_cons, hne, hz]; rfl
      · right
        obtain ⟨pre, n, g1, g2⟩ := lastNode_spec _ hne
        simp only [ne_eq, hne, not_false_iff, if_true, g2]
        refine ⟨n, i, pre, rfl, hi, ⟨hlen, rfl, ?_, by simp⟩, hz⟩
        show c.hash.table[i]? = some (pre ++ [n])
        rw [List.getElem?_eq_getElem hl2, g1]
    · left
      have hi' : ¬ (0 : Int) < (i : Int) := by omega
      have : i = 0 := by omega
      subst this
      unfold initLastLoop
      simp only [hi', if_false]
      exact ⟨_, rfl, hz⟩

theorem last_spec (c : HashCursor κ δ φ) (hlen : c.hash.table.length = c.hash.hashSize) :
    ((c.hash.table.drop 1).flatten = [] ∧ c.last = some { c with node := [], index := 0 }) ∨
    (∃ c' n q pre, c.last = some c' ∧ c'.hash = c.hash ∧ 0 < q ∧ At c' q pre ∧ c'.node = [n] ∧
      (c.hash.table.drop (q + 1)).flatten = []) := by
  by_cases h0 : c.hash.hashSize = 0
  · left
    have ht : c.hash.table = [] := List.eq_nil_of_length_eq_zero (by omega)
    refine ⟨by simp [ht], ?_⟩
    simp [last, h0, initLastLoop]
  · have hcast : (c.hash.hashSize : Int) - 1 = ((c.hash.hashSize - 1 : Nat) : Int) := by omega
    have := initLast_spec c hlen (c.hash.hashSize + 1) (c.hash.hashSize - 1) (by omega) (by omega)
      (by rw [List.drop_eq_nil_of_le (by omega)]; rfl)
    rcases this with ⟨j, h1, h2⟩ | ⟨n, q, pre, h1, h2, h3, h4⟩
    · left; refine ⟨h2, ?_⟩
      simp [last, hcast, h1]
    · right
      exact ⟨{ c with node := [n], index := ((q : Nat) : Int) }, n, q, pre, by simp [last, hcast, h1], rfl, h2, h3, rfl, h4⟩


theorem split_unique {eq : κ → κ → Bool} (hrefl : ∀ a, eq a a = true) (n : HashNode κ δ φ) :
    ∀ (a b c d : List (HashNode κ δ φ)), (a ++ n :: b).Pairwise (Differ eq) → a ++ n :: b = c ++ n :: d → a = c ∧ b = d
  | [], b, [], d, _, h => by simp at h; exact ⟨rfl, h⟩
  | x :: a, b, [], d, hp, h => by
    simp only [List.cons_append, List.nil_append, List.cons.injEq] at h
    obtain ⟨rfl, h⟩ := h
    rw [List.cons_append, List.pairwise_cons] at hp
    have := hp.1 x (by simp)
    unfold Differ at this; rw [hrefl] at this; cases this
  | [], b, x :: c, d, hp, h => by
    simp only [List.cons_append, List.nil_append, List.cons.injEq] at h
    obtain ⟨rfl, rfl⟩ := h
    rw [List.nil_append, List.pairwise_cons] at hp
    have := hp.1 n (by simp)
    unfold Differ at this; rw [hrefl] at this; cases this
  | x :: a, b, y :: c, d, hp, h => by
    simp only [List.cons_append, List.cons.injEq] at h
    rw [List.cons_append, List.pairwise_cons] at hp
    obtain ⟨h1, h2⟩ := split_unique hrefl n a b c d hp.2 h.2
    exact ⟨by rw [h.1, h1], h2⟩

theorem pairwise_chain {α : Type} {R : α → α → Prop} : ∀ (t : List (List α)) (p : Nat) (c : List α),
    t.flatten.Pairwise R → t[p]? = some c → c.Pairwise R
  | [], p, c, _, h => by simp at h
  | b :: t, 0, c, hp, h => by
    simp at h; subst h
    rw [List.flatten_cons, List.pairwise_append] at hp; exact hp.1
  | b :: t, p + 1, c, hp, h => by
    rw [List.flatten_cons, List.pairwise_append] at hp
    exact pairwise_chain t p c hp.2.1 (by simpa using h)

theorem At.mem {c : HashCursor κ δ φ} {p : Nat} {pre : List (HashNode κ δ φ)} (ha : At c p pre)
    {n : HashNode κ δ φ} {rest : List (HashNode κ δ φ)} (hn : c.node = n :: rest) : n ∈ c.hash.table.flatten := by
  rw [List.mem_flatten]
  have := ha.chain
  exact ⟨_, List.mem_of_getElem? this, by rw [hn]; simp⟩

/-- `axl_hash_cursor_remove` on a pair. -/
theorem remove_spec {c : HashCursor κ δ φ} {p : Nat} {pre : List (HashNode κ δ φ)} (ha : At c p pre)
    (hi : Inv c.hash) {n : HashNode κ δ φ} {rest : List (HashNode κ δ φ)} (hn : c.node = n :: rest) :
    ∃ h' c', c.hash.removeCommon n.key true false = some (true, ⟨none, none, none, none⟩, h') ∧
      c.remove = some c' ∧ c'.hash = h' ∧ Inv h' ∧ SameCfg c.hash h' ∧ h'.log = c.hash.log ++ destroyNode n ∧
      h'.table = c.hash.table.set p (pre ++ rest) ∧
      (if rest ≠ [] then c'.node = rest ∧ At c' p pre
       else (c'.node = [] ∧ (h'.table.drop p).flatten = []) ∨
        ∃ q, p ≤ q ∧ At c' q [] ∧ (h'.table.drop p).flatten = c'.node ++ (h'.table.drop (q + 1)).flatten) := by
  have hmem := ha.mem hn
  have hfind : c.hash.table.flatten.find? (fun m => c.hash.equal m.key n.key) = some n := by
    obtain ⟨l, r, hlr⟩ := List.append_of_mem hmem
    have hp : c.hash.table.flatten.Perm (n :: (l ++ r)) := by rw [hlr]; exact List.perm_middle
    rw [find?_perm hi.cons hp hi.diff, List.find?_cons, hi.cons.refl]
  obtain ⟨h', g1, g2, g3, g4, g5, g6, l, ch, g7, g8⟩ := removeCommon_some hi n.key true false n hfind
  have hpl := hi.place p _ ha.chain n (by rw [hn]; simp)
  rw [hpl] at g7 g8
  have hch := ha.chain
  rw [hn] at hch
  rw [hch] at g7
  have hpw := pairwise_chain _ _ _ hi.diff hch
  obtain ⟨e1, e2⟩ := split_unique hi.cons.refl n pre rest l ch hpw (by simpa using g7)
  subst e1 e2
  have hlen' : h'.table.length = h'.hashSize := g2.len
  have hp : p < h'.table.length := by
    rw [g8, List.length_set]
    rw [List.getElem?_eq_some_iff] at hch; exact hch.1
  have hrm : c.hash.remove n.key = some (true, h') := by simp [AxlHash.remove, g1]
  have hchain' : h'.table[p]? = some (pre ++ rest) := by
    rw [g8] at hp ⊢
    exact List.getElem?_set_self (by simpa using hp)
  have hg1 : c.hash.removeCommon n.key true false = some (true, ⟨none, none, none, none⟩, h') := by simpa using g1
  by_cases hr : rest = []
  · subst hr
    have hloop := nextLoop_spec { c with hash := h', node := [] } hlen' (h'.hashSize + 1) p
      (by show p ≤ h'.hashSize; omega) (by show h'.hashSize < _; omega)
    have hrem : c.remove = ({ c with hash := h', node := [] } : HashCursor κ δ φ).nextLoop (h'.hashSize + 1) (p : Nat) := by
      simp only [remove, hn, hrm, Option.bind_eq_bind, Option.bind_some, ne_eq, not_true, if_false, ha.index]
    rcases hloop with ⟨c', k1, k2, k3, k4, k5⟩ | ⟨c', q, k1, k2, k3, k4, k5, k6⟩
    · exact ⟨h', c', hg1, hrem.trans k1, k3, g2, g3, by simpa using g5, g8, by simp; exact .inl ⟨k2, by simpa using k4⟩⟩
    · refine ⟨h', c', hg1, hrem.trans k1, k2, g2, g3, by simpa using g5, g8, ?_⟩
      rw [if_neg (by simp)]
      exact .inr ⟨q, k4, k3, k5⟩
  · refine ⟨h', { c with hash := h', node := rest }, hg1, ?_, rfl, g2, g3, by simpa using g5, g8, ?_⟩
    · simp [remove, hn, hrm, hr]
    · rw [if_pos hr]
      exact ⟨rfl, ⟨hlen', ha.index, hchain', hr⟩⟩

theorem flatten_set_head : ∀ (t : List (List (HashNode κ δ φ))) (p : Nat) (ch ch' : List (HashNode κ δ φ)),
    t[p]? = some ch → ch ≠ [] → t.flatten = ch ++ (t.drop (p + 1)).flatten →
    (t.set p ch').flatten = ch' ++ (t.drop (p + 1)).flatten
  | [], p, ch, ch', h, _, _ => by simp at h
  | b :: t, 0, ch, ch', h, _, hf => by simp
  | b :: t, p + 1, ch, ch', h, hne, hf => by
    simp only [List.getElem?_cons_succ] at h
    simp only [List.flatten_cons, List.drop_succ_cons] at hf
    have hlen := congrArg List.length hf
    have hp : p < t.length := by rw [List.getElem?_eq_some_iff] at h; exact h.1
    have hsplit : t.flatten = (t.take p).flatten ++ (ch ++ (t.drop (p + 1)).flatten) := by
      have h2 := List.drop_eq_getElem_cons hp
      have h3 : t[p] = ch := by rw [List.getElem?_eq_getElem hp] at h; exact Option.some.inj h
      rw [← h3, ← List.flatten_cons, ← h2, ← List.flatten_append, List.take_append_drop]
    rw [hsplit] at hlen
    simp only [List.length_append] at hlen
    have hb : b = [] := List.eq_nil_of_length_eq_zero (by omega)
    have ht : (t.take p).flatten = [] := List.eq_nil_of_length_eq_zero (by omega)
    subst hb
    rw [ht] at hsplit
    have ih := flatten_set_head t p ch ch' h hne (by simpa using hsplit)
    simp only [List.set_cons_succ, List.flatten_cons, List.drop_succ_cons, List.nil_append]
    exact ih

/-- Removing through the cursor until there is no item empties the hash. -/
theorem removesAll_spec : ∀ (k : Nat) {c : HashCursor κ δ φ} {p : Nat}, At c p [] → Inv c.hash →
    c.hash.table.flatten = c.node ++ (c.hash.table.drop (p + 1)).flatten → c.hash.table.flatten.length = k →
    ∃ h', RemovesAll c h' ∧ Inv h' ∧ h'.items = 0 ∧
      h'.log = c.hash.log ++ c.hash.table.flatten.flatMap destroyNode
  | 0, c, p, ha, _, hf, hk => by
    have h0 := List.eq_nil_of_length_eq_zero hk
    rw [h0] at hf
    exact absurd (List.append_eq_nil_iff.1 hf.symm).1 ha.ne
  | k + 1, c, p, ha, hi, hf, hk => by
    rcases hn : c.node with _ | ⟨n, rest⟩
    · exact absurd hn ha.ne
    have hhas : c.hasItem = true := by simp [hasItem, hn]
    obtain ⟨h', c', -, g2, g3, g4, g5, g6, g7, g8⟩ := remove_spec ha hi hn
    have hch := ha.chain
    have hset := flatten_set_head c.hash.table p ([] ++ c.node) rest hch (by simpa using ha.ne) (by simpa using hf)
    simp only [List.nil_append] at g7
    rw [← g7] at hset
    have hdrop : h'.table.drop (p + 1) = c.hash.table.drop (p + 1) := by
      rw [g7]; exact List.drop_set_of_lt (by omega)
    rw [hn] at hf
    have hk' : h'.table.flatten.length = k := by
      rw [hset]
      rw [hf] at hk
      simpa using hk
    have hlog : h'.log ++ h'.table.flatten.flatMap destroyNode =
        c.hash.log ++ c.hash.table.flatten.flatMap destroyNode := by
      rw [g6, hset, hf]; simp
    by_cases hr : rest = []
    · subst hr
      simp only [ne_eq, not_true, if_false] at g8
      have hp : p < c.hash.table.length := by rw [List.getElem?_eq_some_iff] at hch; exact hch.1
      have hd2 : (h'.table.drop p).flatten = h'.table.flatten := by
        have hpp : p < h'.table.length := by rw [g7, List.length_set]; exact hp
        rw [List.drop_eq_getElem_cons hpp, List.flatten_cons, hdrop, hset]
        have : h'.table[p] = [] := by
          apply Option.some.inj
          rw [← List.getElem?_eq_getElem hpp, g7]
          exact List.getElem?_set_self hp
        rw [this]
      rcases g8 with ⟨k1, k2⟩ | ⟨q, k1, k2, k3⟩
      · refine ⟨h', .item hhas g2 ?_, g4, ?_, ?_⟩
        · rw [← g3]; exact .done (by simp [hasItem, k1])
        · rw [g4.items, ← hd2, k2]; rfl
        · rw [← hlog, ← hd2, k2]; simp
      · rw [hd2] at k3
        subst g3
        obtain ⟨h'', m1, m2, m3, m4⟩ := removesAll_spec k k2 g4 k3 hk'
        exact ⟨h'', .item hhas g2 m1, m2, m3, by rw [m4, hlog]⟩
    · rw [if_pos hr] at g8
      subst g3
      obtain ⟨h'', m1, m2, m3, m4⟩ := removesAll_spec k g8.2 g4 (by rw [hset, g8.1, hdrop]) hk'
      exact ⟨h'', .item hhas g2 m1, m2, m3, by rw [m4, hlog]⟩

end HashCursor
end Axl
