/-
Proofs about the attributes of a node.
-/
import Verif.Spec.AttrApi
import Verif.Proofs.HashRun
import Verif.Props.Hash
import Verif.Props.Escape
import Verif.Props.Str

namespace Axl
open Spec.Attr Str

namespace Attrs
open AxlHash

theorem encode_eq (s : List Char) : encode s = Escape.esc s := by
  unfold encode Escape.esc
  congr 1
  funext c
  simp only [Spec.Escape.entities, Escape.ent, List.find?_cons, List.find?_nil]
  by_cases h1 : c = '\''
  · subst h1; rfl
  by_cases h2 : c = '"'
  · subst h2; rfl
  by_cases h3 : c = '&'
  · subst h3; rfl
  by_cases h4 : c = '>'
  · subst h4; rfl
  by_cases h5 : c = '<'
  · subst h5; rfl
  have hb : ∀ d : Char, c ≠ d → (d == c) = false := fun d h => beq_false_of_ne (Ne.symm h)
  simp [h1, h2, h3, h4, h5, hb]

theorem encode_plain {s : List Char} (h : Plain s) : encode s = s := by
  rw [encode_eq]
  apply Escape.esc_of_none
  intro c hc
  have := h c hc
  simp [Spec.Escape.entities] at this
  simp [Escape.special, this]

theorem setValue_spec (s : List Char) (hs : NUL ∉ s) : Escape.setValue (s ++ [NUL]) = some (encode s ++ [NUL]) := by
  rw [encode_eq]
  exact Escape.setValue_esc s [] hs

theorem nul_encode {s : List Char} (hs : NUL ∉ s) : NUL ∉ encode s := by
  rw [encode_eq]; exact Escape.nul_esc hs

theorem cmp_beq (a b : List Char) : cmp (some a) (some b) = (a == b) := by
  rw [Bool.eq_iff_iff, beq_iff_eq]
  exact (C19_cmp (some a) (some b)).trans (by simp [eq_comm])

def kv (x : Attr) : List Char × List Char := (x.name, x.value)

theorem findList_spec (k : List Char) (l : List Attr) :
    (findList k l).map kv = (l.map kv).find? (fun p => p.1 == k) := by
  induction l with
  | nil => rfl
  | cons x xs ih =>
    rw [findList, List.map_cons, List.find?_cons, cmp_beq]
    by_cases hk : x.name = k
    · simp [hk, kv]
    · have : (x.name == k) = false := beq_false_of_ne hk
      simp [kv, this] at ih ⊢
      exact ih

theorem find?_key_perm {l l' : List (List Char × List Char)} (k : List Char) (hp : l.Perm l') (hd : (l.map (·.1)).Nodup) :
    l.find? (fun p => p.1 == k) = l'.find? (fun p => p.1 == k) := by
  induction hp with
  | nil => rfl
  | cons x _ ih =>
    rw [List.map_cons, List.nodup_cons] at hd
    rw [List.find?_cons, List.find?_cons, ih hd.2]
  | swap x y l =>
    simp only [List.map_cons, List.nodup_cons, List.mem_cons, not_or] at hd
    simp only [List.find?_cons]
    cases hx : (x.1 == k) <;> cases hy : (y.1 == k) <;> simp
    rw [beq_iff_eq] at hx hy
    exact absurd (hy.trans hx.symm) hd.1.1
  | trans h1 _ ih1 ih2 => exact (ih1 hd).trans (ih2 ((h1.map _).nodup_iff.1 hd))

abbrev H := AxlHash (List Char) (List Char) Unit
abbrev hfun : List Char → Nat := fun s => hashString (some s)
abbrev efun : List Char → List Char → Bool := fun a b => hashEqualString (some a) (some b)

theorem efun_eq (a b : List Char) : efun a b = (a == b) := by
  rw [Bool.eq_iff_iff, beq_iff_eq]; exact C09_string_functions_consistent.2 a b

def nkv (n : HashNode (List Char) (List Char) Unit) : List Char × Option (List Char) := (n.key, n.data)
def sp (p : List Char × List Char) : List Char × Option (List Char) := (p.1, some p.2)

/-- The hash holds exactly these pairs. -/
structure HRep (h : H) (ps : List (List Char × List Char)) : Prop where
  inv : Inv h
  hash_eq : h.hash = hfun
  equal_eq : h.equal = efun
  perm : (h.table.flatten.map nkv).Perm (ps.map sp)

/-- The attributes stored are exactly these pairs. -/
def Rep (a : Attrs) (ps : List (List Char × List Char)) : Prop :=
  (ps.map (·.1)).Nodup ∧
  match a.ptr with
  | .list l => a.num = l.length ∧ l.length ≤ 10 ∧ (l.map kv).Perm ps
  | .hash h => HRep h ps ∧ a.num = h.items ∧ 11 ≤ h.items

theorem HRep.items {h : H} {ps : List (List Char × List Char)} (hr : HRep h ps) : h.items = ps.length := by
  rw [hr.inv.items]
  have := hr.perm.length_eq
  rw [List.length_map, List.length_map] at this
  exact this

theorem map_find_sp (k : List Char) (ps : List (List Char × List Char)) :
    (ps.map sp).find? (fun p => p.1 == k) = (ps.find? (fun p => p.1 == k)).map sp := by
  rw [List.find?_map]; rfl

theorem find?_skey_perm {l l' : List (List Char × Option (List Char))} (k : List Char) (hp : l.Perm l') (hd : (l'.map (·.1)).Nodup) :
    l.find? (fun p => p.1 == k) = l'.find? (fun p => p.1 == k) := by
  induction hp with
  | nil => rfl
  | cons x _ ih =>
    rw [List.map_cons, List.nodup_cons] at hd
    rw [List.find?_cons, List.find?_cons, ih hd.2]
  | swap x y l =>
    simp only [List.map_cons, List.nodup_cons, List.mem_cons, not_or] at hd
    simp only [List.find?_cons]
    cases hx : (x.1 == k) <;> cases hy : (y.1 == k) <;> simp
    rw [beq_iff_eq] at hx hy
    exact absurd (hx.trans hy.symm) hd.1.1
  | trans _ h2 ih1 ih2 => exact (ih1 ((h2.map _).nodup_iff.2 hd)).trans (ih2 hd)

theorem HRep.find {h : H} {ps : List (List Char × List Char)} (hr : HRep h ps) (hd : (ps.map (·.1)).Nodup) (k : List Char) :
    (h.table.flatten.find? (fun n => h.equal n.key k)).map nkv = (ps.find? (fun p => p.1 == k)).map sp := by
  rw [← map_find_sp]
  have hd' : ((ps.map sp).map (·.1)).Nodup := by rw [List.map_map]; exact hd
  rw [← find?_skey_perm k hr.perm hd', List.find?_map]
  congr 2
  funext n
  rw [hr.equal_eq, efun_eq]; rfl

theorem HRep.lookup {h : H} {ps : List (List Char × List Char)} (hr : HRep h ps) (hd : (ps.map (·.1)).Nodup) (k : List Char) :
    h.exists k = some (ps.any fun p => p.1 == k) ∧ h.get k = some ((ps.find? fun p => p.1 == k).map (·.2)) := by
  have hf := hr.find hd k
  have hl := lookup_spec hr.inv.toTInv k
  constructor
  · unfold AxlHash.exists
    rw [hl, ← List.isSome_find?]
    have := congrArg Option.isSome hf
    rw [Option.isSome_map, Option.isSome_map] at this
    simp only [Option.bind_eq_bind, Option.bind_some, this]
  · unfold AxlHash.get
    split
    · next h0 =>
      have : ps = [] := List.eq_nil_of_length_eq_zero (by rw [← hr.items]; exact h0)
      simp [this]
    · rw [hl]
      simp only [Option.bind_eq_bind, Option.bind_some]
      cases e1 : h.table.flatten.find? (fun n => h.equal n.key k) with
      | none =>
        rw [e1] at hf
        cases e2 : ps.find? (fun p => p.1 == k) with
        | none => rfl
        | some p => rw [e2] at hf; cases hf
      | some n =>
        rw [e1] at hf
        cases e2 : ps.find? (fun p => p.1 == k) with
        | none => rw [e2] at hf; cases hf
        | some p =>
          rw [e2] at hf
          simp only [Option.map_some, Option.some.injEq, nkv, sp, Prod.mk.injEq] at hf
          simp [hf.2]

theorem rep_find {a : Attrs} {ps : List (List Char × List Char)} (hr : Rep a ps) (k : List Char) :
    a.hasAttribute k = some (ps.any fun p => p.1 == k) ∧
    a.getValue k = some ((ps.find? fun p => p.1 == k).map (·.2)) := by
  obtain ⟨hd, hr⟩ := hr
  obtain ⟨num, ptr⟩ := a
  cases ptr with
  | list l =>
    obtain ⟨h1, h2, h3⟩ := hr
    have hf := findList_spec k l
    rw [find?_key_perm k h3 ((h3.map _).nodup_iff.2 hd)] at hf
    have hs : (findList k l).isSome = ps.any fun p => p.1 == k := by
      rw [← List.isSome_find?, ← hf]; simp
    have hv : (findList k l).map (·.value) = (ps.find? fun p => p.1 == k).map (·.2) := by
      rw [← hf, Option.map_map]; rfl
    unfold hasAttribute getValue
    cases l with
    | nil =>
      have : ps = [] := List.nil_perm.1 h3
      subst this
      simp [hasAttributes]
    | cons x xs =>
      have h1 : num ≤ 10 := by simp only at h1; omega
      simp only [hasAttributes, h1, if_true, hs, hv]
      simp
  | hash h =>
    obtain ⟨h1, h2, h3⟩ := hr
    simp only at h1 h2
    have h4 : ¬ num ≤ 10 := by omega
    obtain ⟨g1, g2⟩ := h1.lookup hd k
    unfold hasAttribute getValue
    simp only [hasAttributes, h4, if_false, g1, g2]
    simp

theorem hrep_insert {h : H} {ps : List (List Char × List Char)} (hr : HRep h ps) (hd : (ps.map (·.1)).Nodup)
    (k v : List Char) (d : Option Unit) (hk : ps.any (fun p => p.1 == k) = false) :
    ∃ h', h.insertFull k d (some v) d = some h' ∧ HRep h' ((k, v) :: ps) := by
  have hf := hr.find hd k
  have hnone : ps.find? (fun p => p.1 == k) = none := by
    rw [List.find?_eq_none]
    intro p hp he
    rw [List.any_eq_false] at hk
    exact hk p hp he
  rw [hnone] at hf
  have hf' : h.table.flatten.find? (fun n => h.equal n.key k) = none := by simpa using hf
  obtain ⟨h', g1, g2, g3, g4, -⟩ := insertFull_new hr.inv ⟨k, d, some v, d⟩ hf'
  refine ⟨h', g1, g2, g3.1.trans hr.hash_eq, g3.2.1.trans hr.equal_eq, ?_⟩
  refine (g4.map nkv).trans ?_
  rw [List.map_cons, List.map_cons]
  exact List.Perm.cons _ hr.perm

theorem hrep_new : HRep newHash [] := by
  have := hist_new (δ := List Char) (φ := Unit) C09_string_functions_consistent.1 (step := 1) (by decide)
  exact ⟨this.inv, rfl, rfl, by simp [newHash, newFull]⟩

theorem hrep_perm {h : H} {ps qs : List (List Char × List Char)} (hr : HRep h ps) (hp : ps.Perm qs) : HRep h qs :=
  ⟨hr.inv, hr.hash_eq, hr.equal_eq, hr.perm.trans (hp.map _)⟩

theorem any_key_mem {ps : List (List Char × List Char)} {k : List Char} :
    ps.any (fun p => p.1 == k) = false ↔ k ∉ ps.map (·.1) := by
  rw [List.any_eq_false]
  constructor
  · intro h hm
    obtain ⟨p, hp, rfl⟩ := List.mem_map.1 hm
    exact h p hp (by simp)
  · intro h p hp he
    exact h (List.mem_map.2 ⟨p, hp, by simpa using he⟩)

theorem moveToHash_spec : ∀ (l : List Attr) (h : H) (ps : List (List Char × List Char)), HRep h ps →
    ((ps ++ l.map kv).map (·.1)).Nodup → ∃ h', moveToHash h l = some h' ∧ HRep h' (ps ++ l.map kv)
  | [], h, ps, hr, _ => ⟨h, rfl, by simpa using hr⟩
  | x :: xs, h, ps, hr, hd => by
    have hd0 : (ps.map (·.1)).Nodup := by
      rw [List.map_append] at hd; exact (List.nodup_append.1 hd).1
    have hx : ps.any (fun p => p.1 == x.name) = false := by
      rw [any_key_mem]
      intro hm
      rw [List.map_append, List.nodup_append] at hd
      exact hd.2.2 _ hm _ (by simp [kv]) rfl
    obtain ⟨h1, g1, g2⟩ := hrep_insert hr hd0 x.name x.value (destroyOf x.fromFactory) hx
    have hp : ((x.name, x.value) :: (ps ++ xs.map kv)).Perm (ps ++ (x :: xs).map kv) := by
      rw [List.map_cons]; exact List.perm_middle.symm
    obtain ⟨h2, g3, g4⟩ := moveToHash_spec xs h1 _ g2 (((hp.map _).nodup_iff).2 hd)
    refine ⟨h2, ?_, hrep_perm g4 hp⟩
    rw [moveToHash, g1]
    exact g3

theorem hasAttributes_list (num : Nat) (l : List Attr) : (⟨num, .list l⟩ : Attrs).hasAttributes = !l.isEmpty := by
  cases l <;> rfl

theorem rep_setInternal {a : Attrs} {ps : List (List Char × List Char)} (hr : Rep a ps) (k v : List Char) (f : Bool) :
    ∃ a', a.setInternal k v f = some (!ps.any (fun p => p.1 == k), a') ∧
      Rep a' (if ps.any (fun p => p.1 == k) then ps else (k, v) :: ps) := by
  have hfind := (rep_find hr k).1
  have hr0 := hr
  obtain ⟨hd, hr⟩ := hr
  cases hany : ps.any (fun p => p.1 == k) with
  | true =>
    rw [hany] at hfind
    refine ⟨a, ?_, hr0⟩
    unfold setInternal
    have hne : a.hasAttributes = true := by
      apply Decidable.byContradiction
      intro h
      have h : a.hasAttributes = false := by simpa using h
      simp [hasAttribute, h] at hfind
    simp only [hne, Bool.not_true, Bool.false_eq_true, if_false, hfind]
    split <;> rfl
  | false =>
    rw [hany] at hfind
    simp only [Bool.not_false, Bool.false_eq_true, if_false]
    have hd' : (((k, v) :: ps).map (·.1)).Nodup := by
      rw [List.map_cons, List.nodup_cons]; exact ⟨any_key_mem.1 hany, hd⟩
    obtain ⟨num, ptr⟩ := a
    cases ptr with
    | list l =>
      obtain ⟨h1, h2, h3⟩ := hr
      simp only at h1
      unfold setInternal
      rw [hasAttributes_list]
      cases l with
      | nil =>
        have : ps = [] := List.nil_perm.1 h3
        subst this
        exact ⟨_, rfl, hd', rfl, by simp, by simp [kv]⟩
      | cons x xs =>
        simp only [List.isEmpty_cons, Bool.not_false, Bool.not_true, Bool.false_eq_true, if_false, hfind]
        by_cases hlt : num < 10
        · rw [if_pos hlt]
          refine ⟨_, rfl, hd', ?_, ?_, ?_⟩
          · simp [h1]
          · simp at h1 ⊢; omega
          · rw [List.map_cons]; exact List.Perm.cons _ h3
        · rw [if_neg hlt]
          have h10 : num = 10 := by omega
          obtain ⟨h', g1, g2⟩ := moveToHash_spec (x :: xs) newHash [] hrep_new
            (by rw [List.nil_append]; exact (h3.map _).nodup_iff.2 hd)
          rw [List.nil_append] at g2
          obtain ⟨h'', g3, g4⟩ := hrep_insert (hrep_perm g2 h3) hd k v (destroyOf f) hany
          refine ⟨⟨num + 1, .hash h''⟩, ?_, hd', g4, ?_, ?_⟩
          · unfold hashToUse
            rw [if_pos h10]
            simp only [g1, g3, Option.bind_eq_bind, Option.bind_some]
          · have := g4.items
            have hl := h3.length_eq
            simp at hl this h1 ⊢; omega
          · have := g4.items
            have hl := h3.length_eq
            simp at hl this h1 ⊢; omega
    | hash h =>
      obtain ⟨h1, h2, h3⟩ := hr
      simp only at h1 h2
      have hne : (⟨num, .hash h⟩ : Attrs).hasAttributes = true := rfl
      unfold setInternal
      have hn1 : ¬ num < 10 := by omega
      have hn2 : num ≠ 10 := by omega
      obtain ⟨h', g1, g2⟩ := hrep_insert h1 hd k v (destroyOf f) hany
      refine ⟨⟨num + 1, .hash h'⟩, ?_, hd', g2, ?_, ?_⟩
      · simp only [hne, Bool.not_true, Bool.false_eq_true, if_false, hn1, hfind, hashToUse, hn2, g1,
          Option.bind_eq_bind, Option.bind_some]
      · have := g2.items; have := h1.items; simp at *; omega
      · have := g2.items; have := h1.items; simp at *; omega

theorem rep_setAttribute {a : Attrs} {ps : List (List Char × List Char)} (hr : Rep a ps) (k v : List Char)
    (hk : NUL ∉ k) (hv : NUL ∉ v) :
    ∃ a', a.setAttribute k v = some a' ∧
      Rep a' (if k = [] ∨ ps.any (fun p => p.1 == encode k) then ps else (encode k, encode v) :: ps) := by
  unfold setAttribute
  by_cases h0 : k = []
  · rw [if_pos h0, if_pos (Or.inl h0)]; exact ⟨a, rfl, hr⟩
  · rw [if_neg h0, setValue_spec k hk, setValue_spec v hv]
    simp only [Option.bind_eq_bind, Option.bind_some]
    rw [toStr_spec _ [] (nul_encode hk), toStr_spec _ [] (nul_encode hv)]
    obtain ⟨a', g1, g2⟩ := rep_setInternal hr (encode k) (encode v) false
    rw [g1]
    refine ⟨a', rfl, ?_⟩
    simp only [h0, false_or]
    exact g2

theorem removeList_none {k : List Char} : ∀ {l : List Attr}, (∀ x ∈ l, x.name ≠ k) → removeList k l = none
  | [], _ => rfl
  | x :: xs, h => by
    rw [removeList, cmp_beq, if_neg (by simpa using h x (by simp)), removeList_none (fun y hy => h y (by simp [hy]))]
    rfl

theorem removeList_some {k : List Char} : ∀ {l : List Attr}, (l.map (·.name)).Nodup → k ∈ l.map (·.name) →
    ∃ l', removeList k l = some l' ∧ l'.length + 1 = l.length ∧ l'.map kv = (l.map kv).filter (fun p => p.1 != k)
  | [], _, h => by simp at h
  | x :: xs, hd, hm => by
    rw [List.map_cons, List.nodup_cons] at hd
    rw [removeList, cmp_beq]
    by_cases hx : x.name = k
    · rw [if_pos (by simpa using hx)]
      refine ⟨xs, rfl, by simp, ?_⟩
      rw [List.map_cons, List.filter_cons_of_neg (by simp [kv, hx])]
      rw [List.filter_eq_self.2]
      intro p hp
      obtain ⟨y, hy, rfl⟩ := List.mem_map.1 hp
      have : y.name ≠ k := by
        rintro rfl
        exact hd.1 (by rw [hx]; exact List.mem_map.2 ⟨y, hy, rfl⟩)
      simpa [kv] using this
    · rw [if_neg (by simpa using hx)]
      have hm' : k ∈ xs.map (·.name) := by
        rw [List.map_cons, List.mem_cons] at hm
        exact hm.resolve_left (fun h => hx h.symm)
      obtain ⟨l', g1, g2, g3⟩ := removeList_some hd.2 hm'
      refine ⟨x :: l', by rw [g1]; rfl, by simp; omega, ?_⟩
      rw [List.map_cons, List.map_cons, List.filter_cons_of_pos (by simpa [kv] using hx), g3]

theorem filter_none {ps : List (List Char × List Char)} {k : List Char} (h : k ∉ ps.map (·.1)) :
    ps.filter (fun p => p.1 != k) = ps := by
  rw [List.filter_eq_self]
  intro p hp
  have : p.1 ≠ k := by rintro rfl; exact h (List.mem_map.2 ⟨p, hp, rfl⟩)
  simpa using this

theorem hrep_remove {h : H} {ps : List (List Char × List Char)} (hr : HRep h ps) (hd : (ps.map (·.1)).Nodup) (k : List Char) :
    ∃ b h', h.remove k = some (b, h') ∧ HRep h' (ps.filter fun p => p.1 != k) := by
  have hf := hr.find hd k
  cases e1 : h.table.flatten.find? (fun n => h.equal n.key k) with
  | none =>
    rw [e1] at hf
    have e2 : ps.find? (fun p => p.1 == k) = none := by simpa using hf.symm
    have hk : k ∉ ps.map (·.1) := by
      intro hm
      obtain ⟨p, hp, rfl⟩ := List.mem_map.1 hm
      rw [List.find?_eq_none] at e2
      exact e2 p hp (by simp)
    refine ⟨false, h, ?_, ?_⟩
    · simp [AxlHash.remove, removeCommon_none hr.inv.toTInv k true false e1]
    · rw [filter_none hk]; exact hr
  | some n =>
    obtain ⟨h', g1, g2, g3, g4, -⟩ := removeCommon_some hr.inv k true false n e1
    refine ⟨true, h', by simp [AxlHash.remove, g1], g2, g3.1.trans hr.hash_eq, g3.2.1.trans hr.equal_eq, ?_⟩
    have hnk : n.key = k := by
      have := List.find?_some e1
      rw [hr.equal_eq, efun_eq] at this
      simpa using this
    have hp := (g4.map nkv).symm.trans hr.perm
    have hp' := hp.filter (fun p => p.1 != k)
    rw [List.map_cons, List.filter_cons_of_neg (by simp [nkv, hnk])] at hp'
    have hnd : ((n :: h'.table.flatten).map (·.key)).Nodup := by
      have h2 : ((ps.map sp).map (·.1)).Nodup := by rw [List.map_map]; exact hd
      have h3 := (hp.map (·.1)).nodup_iff.2 h2
      rw [List.map_map] at h3
      exact h3
    rw [List.map_cons, List.nodup_cons] at hnd
    rw [List.filter_eq_self.2] at hp'
    · rw [List.filter_map] at hp'
      exact hp'
    · intro p hp
      obtain ⟨m, hm, rfl⟩ := List.mem_map.1 hp
      have : m.key ≠ k := by
        rintro rfl
        exact hnd.1 (by rw [hnk]; exact List.mem_map.2 ⟨m, hm, rfl⟩)
      simpa [nkv] using this

def enc2 (p : List Char × List Char) : List Char × List Char := (encode p.1, encode p.2)

theorem encode_inj {s t : List Char} (h : encode s = encode t) : s = t := by
  rw [encode_eq, encode_eq] at h
  have h1 := Escape.decodes_esc s
  rw [h] at h1
  exact Escape.decodes_unique h1 (Escape.decodes_esc t)

theorem nodup_enc2 {ps : List (List Char × List Char)} (hd : (ps.map (·.1)).Nodup) : ((ps.map enc2).map (·.1)).Nodup := by
  rw [List.map_map]
  change (ps.map (fun p => encode p.1)).Nodup
  rw [show (fun p : List Char × List Char => encode p.1) = encode ∘ (·.1) from rfl, ← List.map_map]
  exact List.Pairwise.map encode (fun a b h h' => h (encode_inj h')) hd

/-- What storing the pairs again gives: empty names are dropped. -/
def reenc (ps : List (List Char × List Char)) : List (List Char × List Char) := (ps.filter fun p => p.1 != []).map enc2

theorem reenc_perm {ps qs : List (List Char × List Char)} (h : ps.Perm qs) : (reenc ps).Perm (reenc qs) := (h.filter _).map _

theorem reenc_eq {ps : List (List Char × List Char)} (h : ∀ p ∈ ps, p.1 ≠ []) : reenc ps = ps.map enc2 := by
  unfold reenc
  rw [List.filter_eq_self.2]
  intro p hp
  simpa using h p hp

theorem reinsert_spec : ∀ (rest : List (List Char × List Char)) {a : Attrs} {ps : List (List Char × List Char)}, Rep a ps →
    ((rest.map enc2 ++ ps).map (·.1)).Nodup → (∀ p ∈ rest, NUL ∉ p.1 ∧ NUL ∉ p.2) →
    ∃ a', reinsert a (rest.map sp) = some a' ∧ Rep a' ((reenc rest).reverse ++ ps)
  | [], a, ps, hr, _, _ => ⟨a, rfl, hr⟩
  | (k, v) :: rest, a, ps, hr, hd, hpl => by
    obtain ⟨p4, p5⟩ := hpl (k, v) (by simp)
    obtain ⟨a1, g1, g2⟩ := rep_setAttribute hr k v p4 p5
    have hk : encode k ∉ ps.map (·.1) := by
      intro hm
      rw [List.map_cons, List.cons_append, List.map_cons, List.nodup_cons, List.map_append] at hd
      exact hd.1 (List.mem_append_right _ hm)
    have hd1 : ((rest.map enc2 ++ (if k = [] then ps else enc2 (k, v) :: ps)).map (·.1)).Nodup := by
      have : (enc2 (k, v) :: (rest.map enc2 ++ ps)).Perm (rest.map enc2 ++ enc2 (k, v) :: ps) := List.perm_middle.symm
      have h1 := ((this.map (·.1)).nodup_iff).1 hd
      split
      · rw [List.map_cons, List.cons_append, List.map_cons, List.nodup_cons] at hd
        exact hd.2
      · exact h1
    have g2 : Rep a1 (if k = [] then ps else enc2 (k, v) :: ps) := by
      by_cases h0 : k = []
      · rw [if_pos (Or.inl h0)] at g2; rw [if_pos h0]; exact g2
      · rw [if_neg (by rw [any_key_mem.2 hk]; simpa using h0)] at g2; rw [if_neg h0]; exact g2
    obtain ⟨a2, g3, g4⟩ := reinsert_spec rest g2 hd1 (fun p hp => hpl p (by simp [hp]))
    refine ⟨a2, ?_, ?_⟩
    · rw [List.map_cons]
      simp only [reinsert, sp, g1, Option.bind_eq_bind, Option.bind_some]
      exact g3
    · by_cases h0 : k = []
      · rw [if_pos h0] at g4
        have : reenc ((k, v) :: rest) = reenc rest := by unfold reenc; rw [List.filter_cons_of_neg (by simp [h0])]
        rw [this]; exact g4
      · rw [if_neg h0] at g4
        have : reenc ((k, v) :: rest) = enc2 (k, v) :: reenc rest := by
          unfold reenc; rw [List.filter_cons_of_pos (by simpa using h0)]; rfl
        rw [this]; simpa using g4

theorem rep_empty : Rep empty [] := ⟨by simp, rfl, by simp, by simp⟩

theorem rep_perm {a : Attrs} {ps qs : List (List Char × List Char)} (hr : Rep a ps) (hp : ps.Perm qs) : Rep a qs := by
  obtain ⟨hd, hr⟩ := hr
  refine ⟨(hp.map _).nodup_iff.1 hd, ?_⟩
  obtain ⟨num, ptr⟩ := a
  cases ptr with
  | list l => exact ⟨hr.1, hr.2.1, hr.2.2.trans hp⟩
  | hash h => exact ⟨hrep_perm hr.1 hp, hr.2⟩

/-- The pairs in the order of the table. -/
def tablePairs (h : H) : List (List Char × List Char) := h.table.flatten.map fun n => (n.key, n.data.getD [])

theorem HRep.table {h : H} {ps : List (List Char × List Char)} (hr : HRep h ps) :
    h.table.flatten.map nkv = (tablePairs h).map sp ∧ (tablePairs h).Perm ps := by
  have hall : ∀ n ∈ h.table.flatten, n.data = some (n.data.getD []) := by
    intro n hn
    have : nkv n ∈ ps.map sp := hr.perm.subset (List.mem_map.2 ⟨n, hn, rfl⟩)
    obtain ⟨p, -, hp⟩ := List.mem_map.1 this
    have h2 : some p.2 = n.data := congrArg Prod.snd hp
    rw [← h2]; rfl
  constructor
  · unfold tablePairs
    rw [List.map_map]
    apply List.map_congr_left
    intro n hn
    have := hall n hn
    simp only [Function.comp, nkv, sp]
    rw [← this]
  · have := hr.perm.map (fun q : List Char × Option (List Char) => (q.1, q.2.getD []))
    rw [List.map_map, List.map_map] at this
    have e : ((fun q : List Char × Option (List Char) => (q.1, q.2.getD [])) ∘ sp) = id := by funext p; rfl
    rw [e, List.map_id] at this
    exact this

theorem HRep.foreach {h : H} {ps : List (List Char × List Char)} (hr : HRep h ps) (stop : List Char → List Char → Bool) :
    h.foreach (fun k d => stop k (d.getD [])) = some
      (((tablePairs h).takeWhile (fun p => !stop p.1 p.2) ++ ((tablePairs h).find? (fun p => stop p.1 p.2)).toList).map sp) := by
  unfold AxlHash.foreach
  rw [← hr.inv.len, foreachTable_spec _ _ _ _ (by omega) (by omega)]
  simp only [List.drop_zero, Option.bind_eq_bind, Option.bind_some, Option.some.injEq]
  have ht := hr.table.1
  unfold tablePairs
  rw [List.takeWhile_map, List.find?_map, List.map_append, List.map_append]
  have hall : ∀ n ∈ h.table.flatten, nkv n = sp (n.key, n.data.getD []) := by
    unfold tablePairs at ht
    rw [List.map_map] at ht
    exact List.map_inj_left.1 ht
  congr 1
  · rw [List.map_map]
    apply List.map_congr_left
    intro n hn
    exact hall n (List.IsPrefix.subset (List.takeWhile_prefix _) hn)
  · simp only [Function.comp_def]
    cases e : h.table.flatten.find? (fun n => stop n.key (n.data.getD [])) with
    | none => rfl
    | some n => simp only [Option.toList, List.map_cons, List.map_nil, Option.map_some]; rw [← hall n (List.mem_of_find?_eq_some e)]; rfl

theorem HRep.foreachAll {h : H} {ps : List (List Char × List Char)} (hr : HRep h ps) :
    h.foreach (fun _ _ => false) = some ((tablePairs h).map sp) := by
  have := hr.foreach (fun _ _ => false)
  rw [this]
  rw [List.find?_eq_none.2 (by simp)]
  rw [takeWhile_all (fun _ => false) _ (by simp)]
  simp

theorem rep_remove {a : Attrs} {ps : List (List Char × List Char)} (hr : Rep a ps) (k : List Char)
    (hnul : ∀ p ∈ ps, NUL ∉ p.1 ∧ NUL ∉ p.2) :
    ∃ a', a.removeAttribute k = some a' ∧
      Rep a' (if ps.length = 11 ∧ k ∈ ps.map (·.1) then reenc (ps.filter fun p => p.1 != k)
        else ps.filter fun p => p.1 != k) := by
  have hr0 := hr
  obtain ⟨hd, hr⟩ := hr
  have hd' : ((ps.filter fun p => p.1 != k).map (·.1)).Nodup :=
    List.Nodup.sublist (List.Sublist.map _ List.filter_sublist) hd
  obtain ⟨num, ptr⟩ := a
  cases ptr with
  | list l =>
    obtain ⟨h1, h2, h3⟩ := hr
    simp only at h1
    have hl := h3.length_eq
    rw [List.length_map] at hl
    rw [if_neg (by omega)]
    unfold removeAttribute
    rw [hasAttributes_list]
    have hnm : l.map (·.name) = (l.map kv).map (·.1) := by rw [List.map_map]; rfl
    cases l with
    | nil =>
      have : ps = [] := List.nil_perm.1 h3
      subst this
      exact ⟨_, rfl, hr0⟩
    | cons x xs =>
      have hle : num ≤ 10 := by omega
      simp only [List.isEmpty_cons, Bool.not_false, Bool.not_true, Bool.false_eq_true, if_false, hle, if_true]
      by_cases hm : k ∈ (x :: xs).map (·.name)
      · obtain ⟨l', g1, g2, g3⟩ := removeList_some (by rw [hnm]; exact (h3.map _).nodup_iff.2 hd) hm
        rw [g1]
        refine ⟨_, rfl, hd', ?_, ?_, ?_⟩
        · simp only; omega
        · omega
        · rw [g3]; exact h3.filter _
      · rw [removeList_none (fun y hy he => hm (by rw [← he]; exact List.mem_map.2 ⟨y, hy, rfl⟩))]
        refine ⟨_, rfl, ?_⟩
        rw [filter_none]
        · exact hr0
        · intro hm'
          rw [hnm] at hm
          exact hm ((h3.map _).mem_iff.2 hm')
  | hash h =>
    obtain ⟨h1, h2, h3⟩ := hr
    simp only at h1 h2
    have hle : ¬ num ≤ 10 := by omega
    have hne : (⟨num, .hash h⟩ : Attrs).hasAttributes = true := rfl
    unfold removeAttribute
    obtain ⟨b, h', g1, g2⟩ := hrep_remove h1 hd k
    simp only [hne, Bool.not_true, Bool.false_eq_true, if_false, hle, g1, Option.bind_eq_bind, Option.bind_some]
    have hi1 := h1.items
    have hi2 := g2.items
    by_cases hm : k ∈ ps.map (·.1)
    · have hlen : (ps.filter fun p => p.1 != k).length + 1 = ps.length := by
        obtain ⟨p, hp, rfl⟩ := List.mem_map.1 hm
        obtain ⟨s, t, rfl⟩ := List.append_of_mem hp
        rw [List.map_append, List.map_cons, List.nodup_append, List.nodup_cons] at hd
        rw [List.filter_append, List.filter_cons_of_neg (by simp), filter_none (ps := s), filter_none (ps := t)]
        · simp; omega
        · exact hd.2.1.1
        · intro hms
          exact hd.2.2 _ hms _ (by simp) rfl
      by_cases h10 : h'.items = 10
      · rw [if_pos h10, g2.foreachAll]
        simp only [Option.bind_some]
        have hpt := g2.table.2
        obtain ⟨a', g3, g4⟩ := reinsert_spec (tablePairs h') rep_empty
          (by rw [List.append_nil]; exact nodup_enc2 ((hpt.map _).nodup_iff.2 hd'))
          (by
            intro p hp
            have hp := hpt.subset hp
            rw [List.mem_filter] at hp
            exact hnul p hp.1)
        refine ⟨a', g3, rep_perm g4 ?_⟩
        rw [List.append_nil, if_pos ⟨by omega, hm⟩]
        exact (List.reverse_perm _).trans (reenc_perm hpt)
      · rw [if_neg h10, if_neg (by omega)]
        exact ⟨_, rfl, hd', g2, rfl, by omega⟩
    · rw [filter_none hm] at g2 ⊢
      have := g2.items
      rw [if_neg (show ¬ h'.items = 10 by omega), if_neg (fun h => hm h.2)]
      exact ⟨_, rfl, hd, g2, rfl, by omega⟩

/-- What is stored after a history, counting the encoding done when the hash becomes a list. -/
def actual : List Op → List (List Char × List Char)
  | [] => []
  | .set n v :: past =>
    if n = [] ∨ (actual past).any (fun p => p.1 == encode n) then actual past
    else (encode n, encode v) :: actual past
  | .setRef n v _ :: past =>
    if (actual past).any (fun p => p.1 == n) then actual past else (n, v) :: actual past
  | .remove n :: past =>
    if (actual past).length = 11 ∧ n ∈ (actual past).map (·.1) then reenc ((actual past).filter fun p => p.1 != n)
    else (actual past).filter fun p => p.1 != n

theorem encode_ne_nil {s : List Char} (h : s ≠ []) : encode s ≠ [] := by
  intro he
  exact h (encode_inj (he.trans rfl))

theorem mem_reenc {ps : List (List Char × List Char)} {p : List Char × List Char} (h : p ∈ reenc ps) :
    ∃ q ∈ ps, q.1 ≠ [] ∧ p = enc2 q := by
  obtain ⟨q, hq, rfl⟩ := List.mem_map.1 h
  rw [List.mem_filter] at hq
  exact ⟨q, hq.1, by simpa using hq.2, rfl⟩

theorem actual_ok : ∀ {past : List Op}, NoNul NUL past → ∀ p ∈ actual past, NUL ∉ p.1 ∧ NUL ∉ p.2
  | [], _ => by simp [actual]
  | .set n v :: past, hn => by
    have ih := actual_ok (past := past) (fun op h => hn op (by simp [h]))
    have h1 : NUL ∉ n ∧ NUL ∉ v := ⟨hn (.set n v) (by simp) n (by simp [Op.texts]), hn (.set n v) (by simp) v (by simp [Op.texts])⟩
    rw [actual]
    split
    · exact ih
    · next h =>
      rintro p hp
      rw [List.mem_cons] at hp
      rcases hp with rfl | hp
      · exact ⟨nul_encode h1.1, nul_encode h1.2⟩
      · exact ih p hp
  | .setRef n v f :: past, hn => by
    have ih := actual_ok (past := past) (fun op h => hn op (by simp [h]))
    have h1 : NUL ∉ n ∧ NUL ∉ v :=
      ⟨hn (.setRef n v f) (by simp) n (by simp [Op.texts]), hn (.setRef n v f) (by simp) v (by simp [Op.texts])⟩
    rw [actual]
    split
    · exact ih
    · rintro p hp
      rw [List.mem_cons] at hp
      rcases hp with rfl | hp
      · exact h1
      · exact ih p hp
  | .remove n :: past, hn => by
    have ih := actual_ok (past := past) (fun op h => hn op (by simp [h]))
    rw [actual]
    split
    · intro p hp
      obtain ⟨q, hq, -, rfl⟩ := mem_reenc hp
      obtain ⟨g2, g3⟩ := ih q (List.mem_filter.1 hq).1
      exact ⟨nul_encode g2, nul_encode g3⟩
    · intro p hp
      exact ih p (List.mem_filter.1 hp).1

theorem actual_named : ∀ {past : List Op}, Named past → ∀ p ∈ actual past, p.1 ≠ []
  | [], _ => by simp [actual]
  | .set n v :: past, hk => by
    have ih := actual_named (past := past) (fun op h => hk op (by simp [h]))
    rw [actual]
    split
    · exact ih
    · next h =>
      rintro p hp
      rw [List.mem_cons] at hp
      rcases hp with rfl | hp
      · exact encode_ne_nil (fun h' => h (Or.inl h'))
      · exact ih p hp
  | .setRef n v f :: past, hk => by
    have ih := actual_named (past := past) (fun op h => hk op (by simp [h]))
    have h2 : n ≠ [] := fun h => hk (.setRef n v f) (by simp) (by simp [Op.refName, h])
    rw [actual]
    split
    · exact ih
    · rintro p hp
      rw [List.mem_cons] at hp
      rcases hp with rfl | hp
      · exact h2
      · exact ih p hp
  | .remove n :: past, hk => by
    have ih := actual_named (past := past) (fun op h => hk op (by simp [h]))
    rw [actual]
    split
    · intro p hp
      obtain ⟨q, hq, hne, rfl⟩ := mem_reenc hp
      exact encode_ne_nil hne
    · intro p hp
      exact ih p (List.mem_filter.1 hp).1

theorem rep_run : ∀ (ops past : List Op) {a : Attrs}, Rep a (actual past) → NoNul NUL (ops.reverse ++ past) →
    ∃ a', a.run ops = some a' ∧ Rep a' (actual (ops.reverse ++ past))
  | [], past, a, hr, _ => ⟨a, rfl, hr⟩
  | op :: ops, past, a, hr, hn => by
    have step : ∃ a1, a.exec op = some a1 ∧ Rep a1 (actual (op :: past)) := by
      have h1 := hn op (by simp)
      have h3 := actual_ok (past := past) (fun o h => hn o (by simp [h]))
      cases op with
      | set n v => exact rep_setAttribute hr n v (h1 n (by simp [Op.texts])) (h1 v (by simp [Op.texts]))
      | setRef n v f =>
        obtain ⟨a1, g1, g2⟩ := rep_setInternal hr n v f
        refine ⟨a1, ?_, g2⟩
        cases f <;> simp [exec, setAttributeRef, setAttributeFromFactory, g1]
      | remove n =>
        exact rep_remove hr n h3
    obtain ⟨a1, g1, g2⟩ := step
    have e : (op :: ops).reverse ++ past = ops.reverse ++ op :: past := by simp
    rw [e] at hn ⊢
    obtain ⟨a2, g3, g4⟩ := rep_run ops (op :: past) g2 hn
    exact ⟨a2, by rw [run, g1]; exact g3, g4⟩

theorem map_enc2_plain {ps : List (List Char × List Char)} (h : ∀ p ∈ ps, Plain p.1 ∧ Plain p.2) : ps.map enc2 = ps := by
  rw [List.map_congr_left (g := id), List.map_id]
  intro p hp
  simp [enc2, encode_plain (h p hp).1, encode_plain (h p hp).2]

theorem actual_eq_pairs : ∀ {past : List Op}, PlainAtTen past → Named past → actual past = pairs past
  | [], _, _ => rfl
  | .set n v :: past, h, hk => by
    have ih := actual_eq_pairs (past := past) h (fun op ho => hk op (by simp [ho]))
    rw [actual, pairs, ih]
  | .setRef n v f :: past, h, hk => by
    have ih := actual_eq_pairs (past := past) h (fun op ho => hk op (by simp [ho]))
    rw [actual, pairs, ih]
  | .remove n :: past, h, hk => by
    have ih := actual_eq_pairs (past := past) h.1 (fun op ho => hk op (by simp [ho]))
    have hnm := actual_named (past := past) (fun op ho => hk op (by simp [ho]))
    rw [ih] at hnm
    rw [actual, pairs, ih]
    split
    · next hc =>
      rw [reenc_eq (fun p hp => hnm p (List.mem_filter.1 hp).1)]
      apply map_enc2_plain
      intro p hp
      rw [List.mem_filter] at hp
      obtain ⟨q, hq, hqn⟩ := List.mem_map.1 hc.2
      exact (h.2 hc.1 ⟨q, hq, hqn⟩ p hp.1 (by simpa using hp.2))
    · rfl

/-- Names are the same whatever happens to values, if they are plain. -/
theorem actual_names : ∀ {past : List Op}, PlainNames past → Named past →
    (actual past).map (·.1) = (pairs past).map (·.1) ∧ ∀ p ∈ actual past, Plain p.1
  | [], _, _ => ⟨rfl, by simp [actual]⟩
  | .set n v :: past, h, hk => by
    obtain ⟨ih1, ih2⟩ := actual_names (past := past) (fun op ho => h op (by simp [ho])) (fun op ho => hk op (by simp [ho]))
    have hp := h (.set n v) (by simp) n (by simp [Op.newName])
    have ha : (actual past).any (fun p => p.1 == encode n) = (pairs past).any (fun p => p.1 == encode n) := by
      have := congrArg (fun l : List (List Char) => l.any (· == encode n)) ih1
      simpa [List.any_map, Function.comp_def] using this
    rw [actual, pairs, ha]
    split
    · exact ⟨ih1, ih2⟩
    · refine ⟨by simp [ih1], ?_⟩
      intro p hm
      rw [List.mem_cons] at hm
      rcases hm with rfl | hm
      · rw [encode_plain hp]; exact hp
      · exact ih2 p hm
  | .setRef n v f :: past, h, hk => by
    obtain ⟨ih1, ih2⟩ := actual_names (past := past) (fun op ho => h op (by simp [ho])) (fun op ho => hk op (by simp [ho]))
    have hp := h (.setRef n v f) (by simp) n (by simp [Op.newName])
    have ha : (actual past).any (fun p => p.1 == n) = (pairs past).any (fun p => p.1 == n) := by
      have := congrArg (fun l : List (List Char) => l.any (· == n)) ih1
      simpa [List.any_map, Function.comp_def] using this
    rw [actual, pairs, ha]
    split
    · exact ⟨ih1, ih2⟩
    · refine ⟨by simp [ih1], ?_⟩
      intro p hm
      rw [List.mem_cons] at hm
      rcases hm with rfl | hm
      · exact hp
      · exact ih2 p hm
  | .remove n :: past, h, hk => by
    obtain ⟨ih1, ih2⟩ := actual_names (past := past) (fun op ho => h op (by simp [ho])) (fun op ho => hk op (by simp [ho]))
    have hf : ((actual past).filter fun p => p.1 != n).map (·.1) = ((pairs past).filter fun p => p.1 != n).map (·.1) := by
      have := congrArg (fun l : List (List Char) => l.filter (· != n)) ih1
      simpa [List.filter_map, Function.comp_def] using this
    have hnm := actual_named (past := past) (fun op ho => hk op (by simp [ho]))
    rw [actual, pairs, reenc_eq (fun p hp => hnm p (List.mem_filter.1 hp).1)]
    split
    · constructor
      · rw [← hf, List.map_map]
        apply List.map_congr_left
        intro p hp
        exact encode_plain (ih2 p (List.mem_filter.1 hp).1)
      · intro p hp
        obtain ⟨q, hq, rfl⟩ := List.mem_map.1 hp
        have := ih2 q (List.mem_filter.1 hq).1
        simp only [enc2]
        rw [encode_plain this]; exact this
    · exact ⟨hf, fun p hp => ih2 p (List.mem_filter.1 hp).1⟩

theorem rep_num {a : Attrs} {ps : List (List Char × List Char)} (hr : Rep a ps) :
    a.numAttributes = some ps.length ∧ a.hasAttributes = !ps.isEmpty := by
  obtain ⟨hd, hr⟩ := hr
  obtain ⟨num, ptr⟩ := a
  cases ptr with
  | list l =>
    obtain ⟨h1, h2, h3⟩ := hr
    simp only at h1
    have hl := h3.length_eq
    rw [List.length_map] at hl
    constructor
    · unfold numAttributes
      simp only
      rw [if_pos (by omega)]
      simp; omega
    · rw [hasAttributes_list]
      cases l <;> cases ps <;> simp at hl <;> rfl
  | hash h =>
    obtain ⟨h1, h2, h3⟩ := hr
    simp only at h2
    have := h1.items
    constructor
    · unfold numAttributes
      simp only
      rw [if_neg (by omega)]
      simp; omega
    · cases ps with
      | nil => simp at this; omega
      | cons p ps => rfl

theorem foreachList_spec (stop : List Char → List Char → Bool) (l : List Attr) :
    foreachList stop l = ((l.map kv).takeWhile (fun p => !stop p.1 p.2) ++ ((l.map kv).find? (fun p => stop p.1 p.2)).toList).map sp := by
  induction l with
  | nil => rfl
  | cons x xs ih =>
    rw [foreachList, List.map_cons, List.takeWhile_cons, List.find?_cons]
    cases h : stop x.name x.value
    · simp [kv, h, ih, sp]
    · simp [kv, h, sp]

theorem rep_foreach {a : Attrs} {ps : List (List Char × List Char)} (hr : Rep a ps) :
    ∃ qs : List (List Char × List Char), qs.Perm ps ∧ ∀ stop : List Char → List Char → Bool,
      a.foreach stop = some ((qs.takeWhile (fun p => !stop p.1 p.2) ++ (qs.find? (fun p => stop p.1 p.2)).toList).map
        (fun p => (p.1, some p.2))) := by
  obtain ⟨hd, hr⟩ := hr
  obtain ⟨num, ptr⟩ := a
  cases ptr with
  | list l =>
    obtain ⟨h1, h2, h3⟩ := hr
    simp only at h1
    refine ⟨l.map kv, h3, fun stop => ?_⟩
    unfold foreach
    rw [hasAttributes_list]
    cases l with
    | nil => rfl
    | cons x xs =>
      simp only [List.isEmpty_cons, Bool.not_false, Bool.not_true, Bool.false_eq_true, if_false]
      rw [if_pos (by omega), foreachList_spec]
      rfl
  | hash h =>
    obtain ⟨h1, h2, h3⟩ := hr
    simp only at h2
    refine ⟨tablePairs h, h1.table.2, fun stop => ?_⟩
    have hne : (⟨num, .hash h⟩ : Attrs).hasAttributes = true := rfl
    unfold foreach
    simp only [hne, Bool.not_true, Bool.false_eq_true, if_false]
    rw [if_neg (by omega)]
    exact h1.foreach stop

end Attrs

namespace AttrCursor
open Attrs

theorem reads_list (a : Attrs) (ha : a.num ≤ 10) : ∀ l : List Attr,
    Reads ⟨a, a.num, .list l⟩ (l.map kv)
  | [] => .done (by simp [hasItem, ha])
  | x :: xs => by
    refine .item (c' := ⟨a, a.num, .list xs⟩) ?_ ?_ ?_ ?_ ?_ (reads_list a ha xs)
    · simp [hasItem, ha]
    · simp [getKey, ha]
    · simp [getValue, ha]
    · simp [hasNext, ha]
    · simp [next, ha]

theorem reads_hash (a : Attrs) (ha : ¬ a.num ≤ 10) {hc : HashCursor (List Char) (List Char) Unit}
    {ps : List (Option (List Char) × Option (List Char))} (h : HashCursor.Reads hc ps) :
    ∀ qs : List (List Char × List Char), ps = qs.map (fun p => (some p.1, some p.2)) → Reads ⟨a, a.num, .hash hc⟩ qs := by
  induction h with
  | done h =>
    rintro qs hq
    cases qs with
    | nil => exact .done (by simp [hasItem, ha, h])
    | cons q qs => simp at hq
  | @item c c' ps h1 h2 h3 _ ih =>
    rintro qs hq
    cases qs with
    | nil => simp at hq
    | cons q qs =>
      rw [List.map_cons, List.cons.injEq, Prod.mk.injEq] at hq
      refine .item (c' := ⟨a, a.num, .hash c'⟩) ?_ ?_ ?_ ?_ ?_ (ih qs hq.2)
      · simp [hasItem, ha, h1]
      · simp [getKey, ha, hq.1]
      · simp [getValue, ha, hq.1]
      · simp only [hasNext]
        rw [if_neg (by simp), if_neg ha, h2, hq.2]
        cases qs <;> rfl
      · simp [next, ha, h3]

theorem nextLoop_hash (c : HashCursor (List Char) (List Char) Unit) : ∀ (fuel : Nat) (i : Int) {c' : HashCursor (List Char) (List Char) Unit},
    c.nextLoop fuel i = some c' → c'.hash = c.hash
  | 0, _, _, h => by simp [HashCursor.nextLoop] at h
  | fuel + 1, i, c', h => by
    unfold HashCursor.nextLoop at h
    split at h
    · cases hb : c.bucket i with
      | none => simp [hb] at h
      | some node =>
        simp only [hb, Option.bind_eq_bind, Option.bind_some] at h
        split at h
        · cases h; rfl
        · exact nextLoop_hash c fuel _ h
    · cases h; rfl

theorem next_hash {c c' : HashCursor (List Char) (List Char) Unit} (h : c.next = some c') : c'.hash = c.hash := by
  unfold HashCursor.next at h
  split at h
  · cases h; rfl
  · cases h; rfl
  · split at h
    · cases h; rfl
    · exact nextLoop_hash c _ _ h

theorem first_hash {c c' : HashCursor (List Char) (List Char) Unit} (h : c.first = some c') : c'.hash = c.hash := by
  unfold HashCursor.first at h
  cases hl : c.initFirstLoop (c.hash.hashSize + 1) 0 with
  | none => simp [hl] at h
  | some r =>
    obtain ⟨node, i⟩ := r
    simp only [hl, Option.bind_eq_bind, Option.bind_some] at h
    split at h <;> (cases h; rfl)

/-- What a cursor keeps while it moves. -/
def Good (a : Attrs) (c : AttrCursor) : Prop :=
  c.node = a ∧ c.count = a.num ∧
  match a.ptr, c.data with
  | .list _, .list _ => True
  | .hash h, .hash hc => hc.hash = h
  | _, _ => False

theorem good_of_moved {a : Attrs} {ps : List (List Char × List Char)} (hr : Rep a ps) {c : AttrCursor}
    (h : MovedFrom a c) : Good a c := by
  obtain ⟨-, hr⟩ := hr
  obtain ⟨num, ptr⟩ := a
  cases ptr with
  | list l =>
    have hle : num ≤ 10 := by have := hr.1; have := hr.2.1; simp only at *; omega
    induction h with
    | new h => simp [AttrCursor.new, hle] at h; subst h; exact ⟨rfl, rfl, trivial⟩
    | @next c c' _ h ih =>
      obtain ⟨node, count, data⟩ := c
      obtain ⟨e1, e2, hd⟩ := ih
      dsimp only at e1 e2; subst e1; subst e2
      cases data with
      | list d => simp [AttrCursor.next, hle] at h; subst h; exact ⟨rfl, rfl, trivial⟩
      | hash d => exact hd.elim
    | @first c c' _ h ih =>
      obtain ⟨node, count, data⟩ := c
      obtain ⟨e1, e2, hd⟩ := ih
      dsimp only at e1 e2; subst e1; subst e2
      simp [AttrCursor.first, hle] at h; subst h; exact ⟨rfl, rfl, trivial⟩
  | hash hh =>
    have hle : ¬ num ≤ 10 := by have := hr.2.1; have := hr.2.2; simp only at *; omega
    induction h with
    | new h =>
      simp only [AttrCursor.new, hle, if_false] at h
      cases hn : HashCursor.new hh with
      | none => simp [hn] at h
      | some hc => simp [hn] at h; subst h; exact ⟨rfl, rfl, first_hash hn⟩
    | @next c c' _ h ih =>
      obtain ⟨node, count, data⟩ := c
      obtain ⟨e1, e2, hd⟩ := ih
      dsimp only at e1 e2; subst e1; subst e2
      cases data with
      | list d => exact hd.elim
      | hash d =>
        simp only [AttrCursor.next, hle, if_false, ne_eq, not_true] at h
        cases hn : d.next with
        | none => simp [hn] at h
        | some hc => simp [hn] at h; subst h; exact ⟨rfl, rfl, (next_hash hn).trans hd⟩
    | @first c c' _ h ih =>
      obtain ⟨node, count, data⟩ := c
      obtain ⟨e1, e2, hd⟩ := ih
      dsimp only at e1 e2; subst e1; subst e2
      cases data with
      | list d => exact hd.elim
      | hash d =>
        simp only [AttrCursor.first, hle, if_false, ne_eq, not_true] at h
        cases hn : d.first with
        | none => simp [hn] at h
        | some hc => simp [hn] at h; subst h; exact ⟨rfl, rfl, (first_hash hn).trans hd⟩

theorem rep_cursor {a : Attrs} {ps : List (List Char × List Char)} (hr : Rep a ps) :
    ∃ qs : List (List Char × List Char), qs.Perm ps ∧
      (∃ c, AttrCursor.new a = some c ∧ Reads c qs) ∧
      (∀ c, MovedFrom a c → ∃ c1, c.first = some c1 ∧ Reads c1 qs) ∧
      a.foreach (fun _ _ => false) = some (qs.map (fun p => (p.1, some p.2))) := by
  have hgood := fun {c} => good_of_moved (c := c) hr
  obtain ⟨hd, hr⟩ := hr
  obtain ⟨num, ptr⟩ := a
  cases ptr with
  | list l =>
    obtain ⟨h1, h2, h3⟩ := hr
    simp only at h1
    have hle : num ≤ 10 := by omega
    refine ⟨l.map kv, h3, ⟨⟨⟨num, .list l⟩, num, .list l⟩, by simp [AttrCursor.new, hle], reads_list _ hle l⟩, ?_, ?_⟩
    · intro c hc
      obtain ⟨node, count, data⟩ := c
      obtain ⟨e1, e2, -⟩ := hgood hc
      dsimp only at e1 e2; subst e1; subst e2
      exact ⟨⟨⟨count, .list l⟩, count, .list l⟩, by simp [first, hle], reads_list _ hle l⟩
    unfold Attrs.foreach
    rw [hasAttributes_list]
    cases l with
    | nil => rfl
    | cons x xs =>
      simp only [List.isEmpty_cons, Bool.not_false, Bool.not_true, Bool.false_eq_true, if_false]
      rw [if_pos (by omega), foreachList_spec, List.find?_eq_none.2 (by simp), AxlHash.takeWhile_all (fun _ => false) _ (by simp),
        Option.toList, List.append_nil]
      rfl
  | hash h =>
    obtain ⟨h1, h2, h3⟩ := hr
    simp only at h2
    have hle : ¬ num ≤ 10 := by omega
    have hitems := h1.items
    have hfl : h.table.flatten ≠ [] := by
      intro h0
      have := h1.inv.items
      rw [h0] at this; simp at this; omega
    have hfirst : ∀ c0 : HashCursor (List Char) (List Char) Unit, c0.hash = h →
        ∃ c, c0.first = some c ∧ c.hash = h ∧ HashCursor.Reads c ((tablePairs h).map (fun p => (some p.1, some p.2))) := by
      rintro c0 rfl
      rcases HashCursor.first_spec c0 h1.inv.len with ⟨g1, -⟩ | ⟨c', q, g1, g2, g3, g4⟩
      · exact absurd g1 hfl
      · refine ⟨c', g1, g2, ?_⟩
        have := HashCursor.reads_spec _ g3 rfl
        rw [g2, ← g4] at this
        have ht := congrArg (List.map fun p : List Char × Option (List Char) => (some p.1, p.2)) h1.table.1
        rw [List.map_map, List.map_map] at ht
        rw [show (fun p : List Char × List Char => (some p.1, some p.2)) =
          ((fun p : List Char × Option (List Char) => (some p.1, p.2)) ∘ sp) from rfl, ← ht]
        exact this
    obtain ⟨hc, e1, e2, e3⟩ := hfirst ⟨h, [], 0⟩ rfl
    refine ⟨tablePairs h, h1.table.2, ⟨⟨⟨num, .hash h⟩, num, .hash hc⟩, ?_, reads_hash _ hle e3 _ rfl⟩, ?_, ?_⟩
    · have : HashCursor.new h = some hc := e1
      simp [AttrCursor.new, hle, this]
    · intro c hc
      obtain ⟨node, count, data⟩ := c
      obtain ⟨e1', e2', hdat⟩ := hgood hc
      dsimp only at e1' e2'; subst e1'; subst e2'
      cases data with
      | list d => exact hdat.elim
      | hash d =>
        obtain ⟨hc', e4, e5, e6⟩ := hfirst d hdat
        exact ⟨⟨⟨count, .hash h⟩, count, .hash hc'⟩, by simp [first, hle, e4], reads_hash _ hle e6 _ rfl⟩
    · have hne : (⟨num, .hash h⟩ : Attrs).hasAttributes = true := rfl
      unfold Attrs.foreach
      simp only [hne, Bool.not_true, Bool.false_eq_true, if_false]
      rw [if_neg (by omega)]
      exact h1.foreachAll

end AttrCursor
end Axl
