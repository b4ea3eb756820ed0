/-
Helper lemmas about the hash model.
-/
import Verif.Spec.HashApi

namespace Axl
open Spec.Map
namespace AxlHash
variable {κ δ φ : Type}

def toEntry (n : HashNode κ δ φ) : Entry κ δ φ := ⟨n.key, n.keyDestroy, n.data, n.dataDestroy⟩
def ofEntry (e : Entry κ δ φ) : HashNode κ δ φ := ⟨e.key, e.keyDestroy, e.data, e.dataDestroy⟩

@[simp] theorem toEntry_ofEntry (e : Entry κ δ φ) : toEntry (ofEntry e) = e := rfl
@[simp] theorem ofEntry_toEntry (e : HashNode κ δ φ) : ofEntry (toEntry e) = e := rfl

/-- Keys of the two nodes differ. -/
def Differ (eq : κ → κ → Bool) (a b : HashNode κ δ φ) : Prop := eq a.key b.key = false

/-- The table invariant, item count aside. -/
structure TInv (h : AxlHash κ δ φ) : Prop where
  cons : Consistent h.hash h.equal
  step : 0 < h.step
  len : h.table.length = h.hashSize
  place : ∀ (p : Nat) (c : List (HashNode κ δ φ)), h.table[p]? = some c →
    ∀ n ∈ c, h.hash n.key % h.hashSize = p
  diff : h.table.flatten.Pairwise (Differ h.equal)

structure Inv (h : AxlHash κ δ φ) : Prop extends TInv h where
  items : h.items = h.table.flatten.length
  room : h.items ≤ h.hashSize

theorem lookupChain_eq_find? (eq : κ → κ → Bool) (k : κ) (c : List (HashNode κ δ φ)) :
    lookupChain eq k c = c.find? fun n => eq n.key k := by
  induction c with
  | nil => rfl
  | cons n ns ih => simp only [lookupChain, List.find?_cons]; cases h : eq n.key k <;> simp [ih]

theorem perm_set_flatten {α : Type} : ∀ (t : List (List α)) (p : Nat) (c c' : List α) (x : List α),
    t[p]? = some c → c'.Perm (x ++ c) → (t.set p c').flatten.Perm (x ++ t.flatten)
  | [], p, c, c', x, h, _ => by simp at h
  | b :: t, 0, c, c', x, h, hp => by
    simp only [List.getElem?_cons_zero, Option.some.injEq] at h; subst h
    simp only [List.set_cons_zero, List.flatten_cons, ← List.append_assoc]
    exact List.Perm.append_right _ hp
  | b :: t, p + 1, c, c', x, h, hp => by
    simp only [List.getElem?_cons_succ] at h
    have := perm_set_flatten t p c c' x h hp
    simp only [List.set_cons_succ, List.flatten_cons]
    refine (List.Perm.append_left b this).trans ?_
    rw [← List.append_assoc, ← List.append_assoc]
    exact List.Perm.append_right _ List.perm_append_comm

theorem perm_set_flatten' {α : Type} (t : List (List α)) (p : Nat) (c c' x : List α)
    (h : t[p]? = some c) (hp : c.Perm (x ++ c')) : t.flatten.Perm (x ++ (t.set p c').flatten) := by
  have hlt : p < t.length := by
    rw [List.getElem?_eq_some_iff] at h; exact h.1
  have := perm_set_flatten (t.set p c') p c' c x (by simp [hlt]) hp
  rw [List.set_set] at this
  have e : t.set p c = t := by
    apply List.ext_getElem?
    intro i
    rw [List.getElem?_set]
    split
    · next hi => subst hi; rw [h]
    · rfl
  rwa [e] at this

theorem find?_none_of_other {α : Type} (t : List (List α)) (f : α → Bool) (p : Nat) (c : List α)
    (h : t[p]? = some c) (ho : ∀ q c', t[q]? = some c' → q ≠ p → ∀ n ∈ c', f n = false) :
    t.flatten.find? f = c.find? f := by
  induction t generalizing p with
  | nil => simp at h
  | cons b t ih =>
    rw [List.flatten_cons, List.find?_append]
    cases p with
    | zero =>
      simp only [List.getElem?_cons_zero, Option.some.injEq] at h; subst h
      have : t.flatten.find? f = none := by
        rw [List.find?_eq_none]; intro x hx
        rw [List.mem_flatten] at hx
        obtain ⟨l, hl, hxl⟩ := hx
        obtain ⟨i, hi⟩ := List.getElem?_of_mem hl
        have := ho (i + 1) l (by simpa using hi) (by omega) x hxl
        simp [this]
      rw [this]; simp
    | succ p =>
      have hb : b.find? f = none := by
        rw [List.find?_eq_none]; intro x hx
        have := ho 0 b (by simp) (by omega) x hx
        simp [this]
      rw [hb]
      simp only [List.getElem?_cons_succ] at h
      simp only [Option.none_or]
      exact ih p h (fun q c' hq hne => ho (q + 1) c' (by simpa using hq) (by omega))

theorem pos_spec {h : AxlHash κ δ φ} (hi : TInv h) (h0 : h.hashSize ≠ 0) (k : κ) :
    h.pos k = some (h.hash k % h.hashSize) ∧ ∃ c, h.table[h.hash k % h.hashSize]? = some c ∧
      h.table.flatten.find? (fun n => h.equal n.key k) = c.find? (fun n => h.equal n.key k) := by
  have hlt : h.hash k % h.hashSize < h.table.length := by
    rw [hi.len]; exact Nat.mod_lt _ (Nat.pos_of_ne_zero h0)
  refine ⟨by simp [pos, h0], _, List.getElem?_eq_getElem hlt, ?_⟩
  apply find?_none_of_other _ _ _ _ (List.getElem?_eq_getElem hlt)
  intro q c hq hne n hn
  have hp := hi.place q c hq n hn
  cases e : h.equal n.key k with
  | false => rfl
  | true =>
    have := hi.cons.hash _ _ e
    rw [this] at hp; exact absurd hp.symm hne

theorem table_nil {h : AxlHash κ δ φ} (hi : TInv h) (h0 : h.hashSize = 0) : h.table = [] := by
  have := hi.len; rw [h0] at this; exact List.eq_nil_of_length_eq_zero this

/-- `__axl_hash_internal_lookup` searches among all the nodes. -/
theorem lookup_spec {h : AxlHash κ δ φ} (hi : TInv h) (k : κ) :
    h.lookup k = some (h.table.flatten.find? fun n => h.equal n.key k) := by
  unfold lookup
  split
  · next h0 => rw [table_nil hi h0]; rfl
  · next h0 =>
    obtain ⟨hp, c, hc, hf⟩ := pos_spec hi h0 k
    simp [hp, hc, lookupChain_eq_find?, hf]

theorem differ_symm {h : AxlHash κ δ φ} (hi : Consistent h.hash h.equal) (a b : HashNode κ δ φ)
    (hd : Differ h.equal a b) : Differ h.equal b a := by
  unfold Differ at *
  cases e : h.equal b.key a.key with
  | false => rfl
  | true => rw [hi.symm _ _ e] at hd; cases hd

theorem insertNode_spec {h : AxlHash κ δ φ} (hi : TInv h) (h0 : h.hashSize ≠ 0) (n : HashNode κ δ φ) (inc : Bool)
    (hn : ∀ m ∈ h.table.flatten, h.equal m.key n.key = false) :
    ∃ t, h.insertNode n.key n inc = some { h with table := t, items := if inc then h.items + 1 else h.items } ∧
      t.flatten.Perm (n :: h.table.flatten) ∧
      ∀ i, TInv { h with table := t, items := i } := by
  obtain ⟨hp, c, hc, hf⟩ := pos_spec hi h0 n.key
  have hlt : h.hash n.key % h.hashSize < h.table.length := by
    rw [hi.len]; exact Nat.mod_lt _ (Nat.pos_of_ne_zero h0)
  have hperm := perm_set_flatten h.table _ c (n :: c) [n] hc (List.Perm.refl _)
  refine ⟨_, by simp [insertNode, hp, hc], hperm, fun i => ⟨hi.cons, hi.step, by simp [hi.len], ?_, ?_⟩⟩
  · intro p c' hc' m hm
    simp only [List.getElem?_set] at hc'
    split at hc'
    · next hpe =>
      subst hpe
      cases hc'
      cases hm with
      | head => rfl
      | tail _ hm => exact hi.place _ c hc m hm
    · exact hi.place p c' hc' m hm
  · refine (List.Perm.pairwise_iff (fun {a b} hab => differ_symm hi.cons a b hab) hperm).2 ?_
    rw [List.singleton_append, List.pairwise_cons]
    refine ⟨fun m hm => ?_, hi.diff⟩
    exact differ_symm hi.cons m n (hn m hm)

theorem rehash_spec : ∀ (ns : List (HashNode κ δ φ)) (h : AxlHash κ δ φ), TInv h → h.hashSize ≠ 0 →
    (ns ++ h.table.flatten).Pairwise (Differ h.equal) →
    ∃ t, h.rehash ns = some { h with table := t } ∧ t.flatten.Perm (ns ++ h.table.flatten) ∧
      ∀ i, TInv { h with table := t, items := i }
  | [], h, hi, h0, _ => ⟨h.table, rfl, List.Perm.refl _, fun i => ⟨hi.cons, hi.step, hi.len, hi.place, hi.diff⟩⟩
  | n :: ns, h, hi, h0, hd => by
    have hd' := hd
    rw [List.cons_append, List.pairwise_cons] at hd
    have hn : ∀ m ∈ h.table.flatten, h.equal m.key n.key = false := fun m hm =>
      differ_symm hi.cons n m (hd.1 m (List.mem_append_right _ hm))
    obtain ⟨t, ht, hperm, hinv⟩ := insertNode_spec hi h0 n false hn
    have hinv' := hinv h.items
    have hd2 : (ns ++ t.flatten).Pairwise (Differ h.equal) := by
      refine (List.Perm.pairwise_iff (fun {a b} hab => differ_symm hi.cons a b hab) ?_).2 hd'
      refine (List.Perm.append_left ns hperm).trans ?_
      exact List.perm_middle
    obtain ⟨t', ht', hperm', hinv''⟩ := rehash_spec ns _ hinv' h0 hd2
    refine ⟨t', ?_, ?_, hinv''⟩
    · simp only [rehash, ht, Option.bind_eq_bind, Option.bind_some]
      exact ht'
    · refine hperm'.trans ?_
      refine (List.Perm.append_left ns hperm).trans ?_
      exact List.perm_middle

theorem grow_spec {h : AxlHash κ δ φ} (hi : TInv h) :
    ∃ t, h.grow = some { h with table := t, hashSize := h.hashSize + h.step } ∧
      t.flatten.Perm h.table.flatten ∧
      ∀ i, TInv { h with table := t, hashSize := h.hashSize + h.step, items := i } := by
  have hfl : ∀ n, (List.replicate n ([] : List (HashNode κ δ φ))).flatten = [] := by
    intro n; induction n with
    | zero => rfl
    | succ n ih => rw [List.replicate_succ, List.flatten_cons, ih]; rfl
  have h1 : TInv { h with hashSize := h.hashSize + h.step, table := List.replicate (h.hashSize + h.step) [] } := by
    refine ⟨hi.cons, hi.step, by simp, ?_, ?_⟩
    · intro p c hc m hm
      rw [List.getElem?_replicate] at hc
      split at hc
      · cases hc; cases hm
      · cases hc
    · simp
  have hst := hi.step
  obtain ⟨t, ht, hp, hinv⟩ := rehash_spec h.table.flatten _ h1 (by show h.hashSize + h.step ≠ 0; omega)
    (by simpa using hi.diff)
  refine ⟨t, ht, ?_, hinv⟩
  refine hp.trans ?_
  simp

theorem differ_congr {h : AxlHash κ δ φ} (hc : Consistent h.hash h.equal) {a b m : HashNode κ δ φ}
    (hab : h.equal a.key b.key = true) (hd : Differ h.equal a m) : Differ h.equal b m := by
  unfold Differ at *
  cases e : h.equal b.key m.key with
  | false => rfl
  | true => rw [hc.trans _ _ _ hab e] at hd; cases hd

theorem replaceChain_spec (eq : κ → κ → Bool) (k : κ) (new n : HashNode κ δ φ) :
    ∀ c : List (HashNode κ δ φ), c.find? (fun m => eq m.key k) = some n →
    ∃ rest, c.Perm (n :: rest) ∧ (replaceChain eq k new c).Perm (new :: rest)
  | [], h => by simp at h
  | m :: c, h => by
    rw [List.find?_cons] at h
    unfold replaceChain
    cases e : eq m.key k with
    | true =>
      rw [e] at h; simp only [Option.some.injEq] at h; subst h
      exact ⟨c, List.Perm.refl _, by simp⟩
    | false =>
      rw [e] at h; simp only at h
      obtain ⟨rest, h1, h2⟩ := replaceChain_spec eq k new n c h
      refine ⟨m :: rest, (h1.cons m).trans (List.Perm.swap _ _ _), ?_⟩
      simp only [Bool.false_eq_true, if_false]
      exact (h2.cons m).trans (List.Perm.swap _ _ _)

theorem mem_replaceChain (eq : κ → κ → Bool) (k : κ) (new : HashNode κ δ φ) :
    ∀ (c : List (HashNode κ δ φ)) m, m ∈ replaceChain eq k new c → m = new ∨ m ∈ c
  | [], m, h => by simp [replaceChain] at h
  | a :: c, m, h => by
    unfold replaceChain at h
    split at h
    · cases h with
      | head => exact .inl rfl
      | tail _ h => exact .inr (List.mem_cons_of_mem _ h)
    · cases h with
      | head => exact .inr List.mem_cons_self
      | tail _ h =>
        rcases mem_replaceChain eq k new c m h with h | h
        · exact .inl h
        · exact .inr (List.mem_cons_of_mem _ h)

theorem find?_differ {h : AxlHash κ δ φ} {k : κ} {l : List (HashNode κ δ φ)}
    (hf : l.find? (fun n => h.equal n.key k) = none) : ∀ m ∈ l, h.equal m.key k = false := by
  rw [List.find?_eq_none] at hf
  intro m hm; have := hf m hm; simpa using this

/-- Same hash parameters. -/
def SameCfg (h h' : AxlHash κ δ φ) : Prop := h'.hash = h.hash ∧ h'.equal = h.equal ∧ h'.step = h.step

theorem SameCfg.refl (h : AxlHash κ δ φ) : SameCfg h h := ⟨rfl, rfl, rfl⟩
theorem SameCfg.trans {a b c : AxlHash κ δ φ} (h1 : SameCfg a b) (h2 : SameCfg b c) : SameCfg a c :=
  ⟨h2.1.trans h1.1, h2.2.1.trans h1.2.1, h2.2.2.trans h1.2.2⟩

theorem insertFull_new {h : AxlHash κ δ φ} (hi : Inv h) (e : HashNode κ δ φ)
    (hf : h.table.flatten.find? (fun n => h.equal n.key e.key) = none) :
    ∃ h', h.insertFull e.key e.keyDestroy e.data e.dataDestroy = some h' ∧ Inv h' ∧ SameCfg h h' ∧
      h'.table.flatten.Perm (e :: h.table.flatten) ∧ h'.log = h.log := by
  unfold insertFull
  split
  · next h0 =>
    have ht := table_nil hi.toTInv h0
    have hst := hi.step
    have h1 : TInv { h with table := List.replicate h.step [], hashSize := h.step } := by
      refine ⟨hi.cons, hi.step, by simp, ?_, by simp⟩
      intro p c hc m hm
      rw [List.getElem?_replicate] at hc
      split at hc
      · cases hc; cases hm
      · cases hc
    obtain ⟨t, ht2, hp, hinv⟩ := insertNode_spec h1 (by show h.step ≠ 0; omega) e true (by simp)
    refine ⟨_, ht2, ⟨hinv _, ?_, ?_⟩, ⟨rfl, rfl, rfl⟩, ?_, rfl⟩
    · have hit := hi.items
      rw [ht] at hit
      simp only [hp.length_eq]; simp; simpa using hit
    · have hit := hi.items
      rw [ht] at hit
      simp at hit; simp [hit]; omega
    · rw [ht]; simpa using hp
  · next h0 =>
    simp only [lookup_spec hi.toTInv, hf, Option.bind_eq_bind, Option.bind_some]
    split
    · next hs =>
      obtain ⟨t, ht, hp, hinv⟩ := grow_spec hi.toTInv
      simp only [ht, Option.bind_some]
      have hst := hi.step
      obtain ⟨t', ht', hp', hinv'⟩ := insertNode_spec (hinv h.items)
        (by show h.hashSize + h.step ≠ 0; omega) e true
        (fun m hm => find?_differ hf m (hp.mem_iff.1 hm))
      refine ⟨_, ht', ⟨hinv' _, ?_, ?_⟩, ⟨rfl, rfl, rfl⟩, hp'.trans (hp.cons e), rfl⟩
      · have := hi.items
        show h.items + 1 = t'.flatten.length
        rw [hp'.length_eq]; simp only [List.length_cons]; rw [hp.length_eq]; omega
      · have := hi.room
        show h.items + 1 ≤ h.hashSize + h.step
        omega
    · next hs =>
      obtain ⟨t', ht', hp', hinv'⟩ := insertNode_spec hi.toTInv h0 e true (fun m hm => find?_differ hf m hm)
      refine ⟨_, ht', ⟨hinv' _, ?_, ?_⟩, ⟨rfl, rfl, rfl⟩, hp', rfl⟩
      · have := hi.items
        show h.items + 1 = t'.flatten.length
        rw [hp'.length_eq]; simp only [List.length_cons]; omega
      · have := hi.room
        show h.items + 1 ≤ h.hashSize
        omega

theorem insertFull_old {h : AxlHash κ δ φ} (hi : Inv h) (e n : HashNode κ δ φ)
    (hf : h.table.flatten.find? (fun n => h.equal n.key e.key) = some n) :
    ∃ h' rest, h.insertFull e.key e.keyDestroy e.data e.dataDestroy = some h' ∧ Inv h' ∧ SameCfg h h' ∧
      h.table.flatten.Perm (n :: rest) ∧ h'.table.flatten.Perm (e :: rest) ∧
      h'.log = h.log ++ destroyNode n := by
  unfold insertFull
  split
  · next h0 => rw [table_nil hi.toTInv h0] at hf; simp at hf
  · next h0 =>
    obtain ⟨hp, c, hc, hfc⟩ := pos_spec hi.toTInv h0 e.key
    simp only [lookup_spec hi.toTInv, hf, hp, hc, Option.bind_eq_bind, Option.bind_some]
    rw [hf] at hfc
    have hlt : h.hash e.key % h.hashSize < h.table.length := by
      rw [hi.len]; exact Nat.mod_lt _ (Nat.pos_of_ne_zero h0)
    obtain ⟨rest, hr1, hr2⟩ := replaceChain_spec h.equal e.key e n c hfc.symm
    -- flatten without this chain
    have hA := perm_set_flatten' h.table _ c rest [n] hc hr1
    have hB := perm_set_flatten (h.table.set (h.hash e.key % h.hashSize) rest) _ rest
      (replaceChain h.equal e.key e c) [e] (List.getElem?_set_self hlt) hr2
    rw [List.set_set] at hB
    have hne : h.equal n.key e.key = true := by
      exact List.find?_some (p := fun n : HashNode κ δ φ => h.equal n.key e.key) hf
    refine ⟨_, (h.table.set (h.hash e.key % h.hashSize) rest).flatten, rfl, ⟨⟨hi.cons, hi.step, ?_, ?_, ?_⟩, ?_, hi.room⟩,
      ⟨rfl, rfl, rfl⟩, hA, hB, rfl⟩
    · simp [hi.len]
    · intro p c' hc' m hm
      simp only [List.getElem?_set] at hc'
      split at hc'
      · next hpe =>
        subst hpe
        cases hc'
        rcases mem_replaceChain _ _ _ _ _ hm with rfl | hm
        · rfl
        · exact hi.place _ c hc m hm
      · exact hi.place p c' hc' m hm
    · refine (List.Perm.pairwise_iff (fun {a b} hab => differ_symm hi.cons a b hab) hB).2 ?_
      have := (List.Perm.pairwise_iff (fun {a b} hab => differ_symm hi.cons a b hab) hA).1 hi.diff
      rw [List.singleton_append, List.pairwise_cons] at this ⊢
      exact ⟨fun m hm => differ_congr hi.cons hne (this.1 m hm), this.2⟩
    · have := hi.items
      show h.items = _
      rw [this, hA.length_eq]; show _ = List.length (List.flatten (h.table.set _ _)); rw [hB.length_eq]; simp

theorem unlinkChain_none (eq : κ → κ → Bool) (k : κ) :
    ∀ c : List (HashNode κ δ φ), c.find? (fun m => eq m.key k) = none → unlinkChain eq k c = none
  | [], _ => rfl
  | m :: c, h => by
    rw [List.find?_cons] at h
    unfold unlinkChain
    cases e : eq m.key k with
    | true => rw [e] at h; cases h
    | false => rw [e] at h; simp [unlinkChain_none eq k c h]

theorem unlinkChain_some (eq : κ → κ → Bool) (k : κ) (n : HashNode κ δ φ) :
    ∀ c : List (HashNode κ δ φ), c.find? (fun m => eq m.key k) = some n →
    ∃ l r, c = l ++ n :: r ∧ unlinkChain eq k c = some (n, l ++ r)
  | [], h => by simp at h
  | m :: c, h => by
    rw [List.find?_cons] at h
    unfold unlinkChain
    cases e : eq m.key k with
    | true =>
      rw [e] at h; simp only [Option.some.injEq] at h; subst h
      exact ⟨[], c, rfl, by simp⟩
    | false =>
      rw [e] at h; simp only at h
      obtain ⟨l, r, h1, h2⟩ := unlinkChain_some eq k n c h
      exact ⟨m :: l, r, by simp [h1], by simp [h2]⟩

theorem removeCommon_none {h : AxlHash κ δ φ} (hi : TInv h) (k : κ) (r d : Bool)
    (hf : h.table.flatten.find? (fun n => h.equal n.key k) = none) :
    h.removeCommon k r d = some (false, ⟨none, none, none, none⟩, h) := by
  unfold removeCommon
  split
  · rfl
  · next h0 =>
    obtain ⟨hp, c, hc, hfc⟩ := pos_spec hi h0 k
    rw [hf] at hfc
    simp [hp, hc, unlinkChain_none _ _ _ hfc.symm]

theorem removeCommon_some {h : AxlHash κ δ φ} (hi : Inv h) (k : κ) (r d : Bool) (n : HashNode κ δ φ)
    (hf : h.table.flatten.find? (fun n => h.equal n.key k) = some n) :
    ∃ h', h.removeCommon k r d = some (true,
        (if d then ⟨some n.key, n.keyDestroy, n.data, n.dataDestroy⟩ else ⟨none, none, none, none⟩), h') ∧
      Inv h' ∧ SameCfg h h' ∧ h.table.flatten.Perm (n :: h'.table.flatten) ∧
      h'.log = h.log ++ (if r && !d then destroyNode n else []) ∧ h'.hashSize = h.hashSize ∧
      ∃ l c, h.table[h.hash k % h.hashSize]? = some (l ++ n :: c) ∧
        h'.table = h.table.set (h.hash k % h.hashSize) (l ++ c) := by
  unfold removeCommon
  split
  · next h0 => rw [table_nil hi.toTInv h0] at hf; simp at hf
  · next h0 =>
    obtain ⟨hp, c, hc, hfc⟩ := pos_spec hi.toTInv h0 k
    rw [hf] at hfc
    obtain ⟨l, rr, hl, hu⟩ := unlinkChain_some h.equal k n c hfc.symm
    have hlt : h.hash k % h.hashSize < h.table.length := by
      rw [hi.len]; exact Nat.mod_lt _ (Nat.pos_of_ne_zero h0)
    have hA := perm_set_flatten' h.table _ c (l ++ rr) [n] hc (by rw [hl]; exact List.perm_middle)
    have hinv : ∀ lg, Inv { h with table := h.table.set (h.hash k % h.hashSize) (l ++ rr), items := h.items - 1, log := lg } := by
      intro lg
      refine ⟨⟨hi.cons, hi.step, by simp [hi.len], ?_, ?_⟩, ?_, ?_⟩
      · intro p c' hc' m hm
        simp only [List.getElem?_set] at hc'
        split at hc'
        · next hpe =>
          subst hpe
          cases hc'
          refine hi.place _ c hc m ?_
          rw [hl]; rw [List.mem_append] at hm ⊢
          exact hm.imp id (List.mem_cons_of_mem _)
        · exact hi.place p c' hc' m hm
      · have := (List.Perm.pairwise_iff (fun {a b} hab => differ_symm hi.cons a b hab) hA).1 hi.diff
        rw [List.singleton_append, List.pairwise_cons] at this
        exact this.2
      · have h1 := hi.items
        have h2 := hA.length_eq
        simp only [List.singleton_append, List.length_cons] at h2
        show h.items - 1 = (h.table.set (h.hash k % h.hashSize) (l ++ rr)).flatten.length
        omega
      · have := hi.room
        show h.items - 1 ≤ h.hashSize
        omega
    simp only [hp, hc, hu, Option.bind_eq_bind, Option.bind_some]
    cases d with
    | true =>
      refine ⟨_, rfl, hinv _, ⟨rfl, rfl, rfl⟩, hA, ?_, rfl, l, rr, by rw [← hl], rfl⟩
      simp
    | false =>
      refine ⟨_, rfl, hinv _, ⟨rfl, rfl, rfl⟩, hA, ?_, rfl, l, rr, by rw [← hl], rfl⟩
      simp

/-- Among different nodes a search does not depend on the order. -/
theorem find?_perm {eq : κ → κ → Bool} {hash : κ → Nat} (hc : Consistent hash eq) {k : κ}
    {l l' : List (HashNode κ δ φ)} (hp : l.Perm l') (hd : l.Pairwise (Differ eq)) :
    l.find? (fun n => eq n.key k) = l'.find? (fun n => eq n.key k) := by
  induction hp with
  | nil => rfl
  | cons x _ ih =>
    rw [List.pairwise_cons] at hd
    rw [List.find?_cons, List.find?_cons, ih hd.2]
  | swap x y l =>
    rw [List.pairwise_cons, List.pairwise_cons] at hd
    simp only [List.find?_cons]
    cases hx : eq x.key k <;> cases hy : eq y.key k <;> simp
    have h1 : eq y.key x.key = false := hd.1 x (by simp)
    rw [hc.trans _ _ _ hy (hc.symm _ _ hx)] at h1
    cases h1
  | trans h1 _ ih1 ih2 =>
    have hd2 := (List.Perm.pairwise_iff (R := Differ eq) (fun {a b} hab => by
      unfold Differ at *
      cases e : eq b.key a.key with
      | false => rfl
      | true => rw [hc.symm _ _ e] at hab; cases hab) h1).1 hd
    rw [ih1 hd, ih2 hd2]

end AxlHash
end Axl
