/-
The lookup that trims the value of an attribute where it is stored.
-/
import Verif.Model.AttrTrim
import Verif.Proofs.Attr
import Verif.Proofs.Str

namespace Axl
open Str Spec.Attr Spec.Str

namespace Attrs

/-- The pairs with a new value for a name. -/
def setPair (k t : List Char) (ps : List (List Char × List Char)) : List (List Char × List Char) :=
  ps.map fun p => if p.1 == k then (p.1, t) else p

theorem setPair_keys (k t : List Char) (ps : List (List Char × List Char)) : (setPair k t ps).map (·.1) = ps.map (·.1) := by
  rw [setPair, List.map_map]
  refine List.map_congr_left fun p _ => ?_
  simp only [Function.comp_apply]
  split <;> rfl

theorem setPair_length (k t : List Char) (ps : List (List Char × List Char)) : (setPair k t ps).length = ps.length := by
  simp [setPair]

theorem setPair_off {k t : List Char} {ps : List (List Char × List Char)} (h : k ∉ ps.map (·.1)) : setPair k t ps = ps := by
  rw [setPair]
  conv => rhs; rw [← List.map_id ps]
  refine List.map_congr_left fun p hp => ?_
  have : p.1 ≠ k := fun e => h (by rw [← e]; exact List.mem_map_of_mem hp)
  simp [this]

theorem find_setPair (k t k' : List Char) (ps : List (List Char × List Char)) :
    ((setPair k t ps).find? fun p => p.1 == k').map (·.2) =
      if k' = k then ((ps.find? fun p => p.1 == k).map fun _ => t) else (ps.find? fun p => p.1 == k').map (·.2) := by
  induction ps with
  | nil => simp [setPair]
  | cons p ps ih =>
    have hc : setPair k t (p :: ps) = (if p.1 == k then (p.1, t) else p) :: setPair k t ps := rfl
    rw [hc]
    generalize setPair k t ps = X at ih
    by_cases h1 : p.1 = k
    · by_cases h2 : k' = k
      · subst h2; simp [h1]
      · have h3 : k ≠ k' := fun e => h2 e.symm
        simp only [h2, if_false] at ih ⊢
        simp only [List.find?_cons, h1, beq_self_eq_true, if_true, beq_eq_false_iff_ne.2 h3, ih]
    · simp only [beq_eq_false_iff_ne.2 h1, Bool.false_eq_true, if_false, List.find?_cons]
      by_cases h2 : k' = k
      · subst h2
        simp only [if_true] at ih
        simp only [beq_eq_false_iff_ne.2 h1, if_true, ih]
      · simp only [h2, if_false] at ih ⊢
        cases p.1 == k' <;> simp only [ih, Option.map_some]

theorem writeList_kv (k t : List Char) : ∀ l : List Attr, ((l.map kv).map (·.1)).Nodup →
    (writeList k t l).map kv = setPair k t (l.map kv)
  | [], _ => rfl
  | x :: xs, h => by
    rw [List.map_cons, List.map_cons, List.nodup_cons] at h
    have hc : cmp (some x.name) (some k) = (x.name == k) := by rw [cmp_beq]
    simp only [writeList]
    rw [hc]
    by_cases e : x.name = k
    · subst e
      have h1 : x.name ∉ (xs.map kv).map (·.1) := h.1
      simp only [beq_self_eq_true, if_true, List.map_cons]
      rw [setPair, List.map_cons]
      have := setPair_off (t := t) h1
      rw [setPair] at this
      rw [this]
      simp [kv]
    · have e' : (x.name == k) = false := by simpa using e
      rw [e']
      simp only [Bool.false_eq_true, if_false, List.map_cons]
      rw [writeList_kv k t xs h.2, setPair, setPair, List.map_cons]
      simp [kv, e]

theorem writeList_length (k t : List Char) : ∀ l : List Attr, (writeList k t l).length = l.length
  | [] => rfl
  | x :: xs => by
    simp only [writeList]
    split
    · rfl
    · simp [writeList_length k t xs]

theorem setPair_perm (k t : List Char) {ps qs : List (List Char × List Char)} (h : ps.Perm qs) :
    (setPair k t ps).Perm (setPair k t qs) := h.map _

theorem writeHash_spec {h : H} {ps : List (List Char × List Char)} (hr : HRep h ps) (hd : (ps.map (·.1)).Nodup)
    (k t v : List Char) (hf : (ps.find? fun p => p.1 == k).map (·.2) = some v) :
    ∃ h', writeHash h k t = some h' ∧ HRep h' (setPair k t ps) ∧ h'.items = h.items := by
  have hfind := hr.find hd k
  obtain ⟨p, hp, rfl⟩ := Option.map_eq_some_iff.1 hf
  rw [hp] at hfind
  obtain ⟨n, hn, en⟩ := Option.map_eq_some_iff.1 hfind
  have hk : n.key = k := by
    have := List.find?_some (p := fun n : HashNode (List Char) (List Char) Unit => h.equal n.key k) hn
    rw [hr.equal_eq, efun_eq] at this
    simpa using this
  subst hk
  obtain ⟨h', rest, e, hi, hc, p1, p2, -⟩ := AxlHash.insertFull_old hr.inv ⟨n.key, n.keyDestroy, some t, n.dataDestroy⟩ n hn
  have hs : h.hashSize ≠ 0 := by
    intro h0
    rw [AxlHash.table_nil hr.inv.toTInv h0] at hn
    simp at hn
  obtain ⟨q1, c, q2, -⟩ := AxlHash.pos_spec hr.inv.toTInv hs n.key
  unfold AxlHash.insertFull at e
  rw [if_neg hs] at e
  simp only [AxlHash.lookup_spec hr.inv.toTInv, hn, q1, q2, Option.bind_eq_bind, Option.bind_some, Option.some.injEq] at e
  refine ⟨{ h with table := h'.table }, ?_, ⟨⟨⟨hr.inv.cons, hr.inv.step, ?_, ?_, ?_⟩, ?_, ?_⟩, hr.hash_eq, hr.equal_eq, ?_⟩, rfl⟩
  · unfold writeHash
    simp only [AxlHash.lookup_spec hr.inv.toTInv, hn, q1, q2, Option.bind_eq_bind, Option.bind_some]
    rw [← e]
  · have := hi.len; rw [← e] at this; rw [← e]; exact this
  · have := hi.place; rw [← e] at this; rw [← e]; exact this
  · have := hi.diff; rw [← e] at this; rw [← e]; exact this
  · have := hi.items; rw [← e] at this; rw [← e]; exact this
  · exact hr.inv.room
  · have hps : (h.table.flatten.map nkv).Perm (ps.map sp) := hr.perm
    have h1 : (nkv n :: rest.map nkv).Perm (ps.map sp) := ((p1.map nkv).symm).trans hps
    refine (p2.map nkv).trans ?_
    have hmap : ((ps.map sp).map fun q : List Char × Option (List Char) => if q.1 == n.key then (q.1, some t) else q) = (setPair n.key t ps).map sp := by
      rw [setPair, List.map_map, List.map_map]
      refine List.map_congr_left fun q _ => ?_
      show (if q.1 == n.key then (q.1, some t) else (q.1, some q.2)) = sp (if q.1 == n.key then (q.1, t) else q)
      split <;> rfl
    rw [← hmap]
    refine List.Perm.trans ?_ (h1.map _)
    have hnd : ((nkv n :: rest.map nkv).map (·.1)).Nodup := by
      refine (h1.map _).nodup_iff.2 ?_
      rw [List.map_map]; exact hd
    rw [List.map_cons, List.nodup_cons] at hnd
    rw [List.map_cons, List.map_cons]
    have e1 : (if (nkv n).1 == n.key then ((nkv n).1, some t) else nkv n) = (n.key, some t) := by simp [nkv]
    rw [e1]
    have e2 : ((rest.map nkv).map fun q : List Char × Option (List Char) => if q.1 == n.key then (q.1, some t) else q) = rest.map nkv := by
      conv => rhs; rw [← List.map_id (rest.map nkv)]
      refine List.map_congr_left fun q hq => ?_
      have : q.1 ≠ n.key := fun e => hnd.1 (by show n.key ∈ _; rw [← e]; exact List.mem_map_of_mem hq)
      simp [this]
    rw [e2]
    exact .refl _

theorem nul_setPair {k v t : List Char} {ps : List (List Char × List Char)} (h1 : (ps.find? fun p => p.1 == k).map (·.2) = some v)
    (h2 : Trimmed v t) (hn : ∀ p ∈ ps, NUL ∉ p.1 ∧ NUL ∉ p.2) : ∀ p ∈ setPair k t ps, NUL ∉ p.1 ∧ NUL ∉ p.2 := by
  obtain ⟨q, hq, rfl⟩ := Option.map_eq_some_iff.1 h1
  intro p hp
  obtain ⟨p', hp', rfl⟩ := List.mem_map.1 hp
  split
  · refine ⟨(hn p' hp').1, fun hm => ?_⟩
    obtain ⟨l, r, e, -⟩ := h2
    exact (hn q (List.mem_of_find?_eq_some hq)).2 (by rw [e]; simp only [List.mem_append]; exact .inl (.inr hm))
  · exact hn p' hp'

theorem rep_trimmed {a : Attrs} {ps : List (List Char × List Char)} (hr : Rep a ps) (k : List Char)
    (hn : ∀ p ∈ ps, NUL ∉ p.2) :
    ((ps.find? fun p => p.1 == k) = none ∧ a.getValueTrimmed k = some (none, a)) ∨
    ∃ v t b, (ps.find? fun p => p.1 == k).map (·.2) = some v ∧ Trimmed v t ∧
      a.getValueTrimmed k = some (some t, b) ∧ Rep b (setPair k t ps) := by
  have hv := (rep_find hr k).2
  cases hf : ps.find? (fun p => p.1 == k) with
  | none =>
    refine .inl ⟨rfl, ?_⟩
    rw [hf] at hv
    simp only [getValueTrimmed, hv, Option.bind_eq_bind, Option.bind_some, Option.map_none]
  | some p =>
    refine .inr ?_
    rw [hf] at hv
    obtain ⟨t, h1, h2⟩ := trimWithSize_spec p.2 [] (hn p (List.mem_of_find?_eq_some hf))
    have ht : NUL ∉ t := by
      obtain ⟨l, r, e, -⟩ := h1
      intro hm
      exact hn p (List.mem_of_find?_eq_some hf) (by rw [e]; simp [hm])
    have h3 : toStr (t ++ NUL :: (p.2 ++ [NUL]).drop (t.length + 1)) = t := toStr_spec _ _ ht
    have hw : ∃ b, a.writeValue k t = some b ∧ Rep b (setPair k t ps) := by
      obtain ⟨hd, hr⟩ := hr
      obtain ⟨num, ptr⟩ := a
      unfold writeValue
      cases ptr with
      | list l =>
        obtain ⟨g1, g2, g3⟩ := hr
        simp only at g1 g2 g3
        rw [if_pos (by show num ≤ 10; omega)]
        refine ⟨_, rfl, by rw [setPair_keys]; exact hd, ?_, ?_, ?_⟩
        · simp only [writeList_length]; exact g1
        · rw [writeList_length]; exact g2
        · rw [writeList_kv k t l ((g3.map _).nodup_iff.2 hd)]
          exact setPair_perm k t g3
      | hash h =>
        obtain ⟨g1, g2, g3⟩ := hr
        simp only at g1 g2 g3
        rw [if_neg (by show ¬ num ≤ 10; omega)]
        obtain ⟨h', w1, w2, w3⟩ := writeHash_spec g1 hd k t p.2 (by rw [hf]; rfl)
        simp only [w1, Option.bind_eq_bind, Option.bind_some]
        exact ⟨_, rfl, by rw [setPair_keys]; exact hd, w2, by simp only [w3]; exact g2, by rw [w3]; exact g3⟩
    obtain ⟨b, w1, w2⟩ := hw
    refine ⟨p.2, t, b, rfl, h1, ?_, w2⟩
    simp only [getValueTrimmed, hv, Option.bind_eq_bind, Option.bind_some, Option.map_some, h2, h3, w1]

end Attrs
end Axl
