/-
The copies of a table and the cursor at the last item, with the nodes in memory, are those of the table with lists.
-/
import Verif.Model.HashMemCopy
import Verif.Proofs.HashMemRun

namespace Axl
open Spec.Map
variable {κ δ φ : Type}

namespace MHash

/-- One pair is copied. -/
theorem copyItem_rel {m mr : MHash κ δ φ} {h hr hr' : AxlHash κ δ φ} {A Ar : List (List Piece)} (r : Rel m h A []) (rr : Rel mr hr Ar [])
    {n : Nat} (hn : A.flatten.length ≤ n) (hnr : Ar.flatten.length ≤ n) (hz : hr.hashSize = 0 → hr.table = [])
    {kc : HashNode κ δ φ → κ} {dc : HashNode κ δ φ → Option δ} {k : κ} (hh : h.copyItem kc dc hr k = some hr') :
    ∃ mr' Ar' x, m.copyItem n kc dc mr k = some mr' ∧ Rel mr' hr' Ar' [] ∧
      hr.insertFull (kc x) x.keyDestroy (dc x) x.dataDestroy = some hr' := by
  unfold AxlHash.copyItem at hh
  cases hp : h.pos k with
  | none => simp [hp] at hh
  | some i =>
    cases hc : h.table[i]? with
    | none => simp [hp, hc] at hh
    | some chain =>
      cases hl : AxlHash.lookupChain h.equal k chain with
      | none => simp [hp, hc, hl] at hh
      | some x =>
        simp only [hp, hc, hl, Option.bind_eq_bind, Option.bind_some] at hh
        have h0 : h.hashSize ≠ 0 := by
          intro h0
          simp [AxlHash.pos, h0] at hp
        have hlk : h.lookup k = some (some x) := by
          simp [AxlHash.lookup, h0, hp, hc, hl]
        rcases lookup_rel r hn hlk with ⟨e, -⟩ | ⟨x', i', p, as1, a, as2, ns1, ns2, nx, e1, -, e2, e3, e4, -, -, -, -, e5, -⟩
        · cases e
        · cases e1
          obtain ⟨mr', Ar', g1, g2⟩ := insertFull_rel rr hnr hz hh
          refine ⟨mr', Ar', x, ?_, g2, hh⟩
          have hpm : m.pos k = some i' := by
            rw [← e2]
            simp [pos, AxlHash.pos, r.hash, r.size]
          have h0' : m.hashSize ≠ 0 := by rw [r.size]; exact h0
          simp only [lookup, h0', if_false, hpm, e4, Option.bind_eq_bind, Option.bind_some] at e3
          cases p with
          | none => simp at e3
          | some p =>
            simp only at e3
            simp only [copyItem, hpm, e4, Option.bind_eq_bind, Option.bind_some, e3, e5]
            exact g1

variable [NullKey κ]

/-- The pairs of all the keys are copied. -/
theorem copyItems_rel {hash : κ → Nat} {eq : κ → κ → Bool} {m : MHash κ δ φ} {h : AxlHash κ δ φ} {A : List (List Piece)} (r : Rel m h A [])
    {n : Nat} (hn : A.flatten.length ≤ n) {kc : HashNode κ δ φ → κ} {dc : HashNode κ δ φ → Option δ} :
    ∀ {ks : List κ} {mr : MHash κ δ φ} {hr hr' : AxlHash κ δ φ} {Ar : List (List Piece)} {past : List (Op κ δ φ)},
      Rel mr hr Ar [] → AxlHash.Hist hash eq hr past → past.length + ks.length ≤ n → h.copyItems kc dc hr ks = some hr' →
      ∃ mr' Ar', m.copyItems n kc dc mr ks = some mr' ∧ Rel mr' hr' Ar' [] ∧ Ar'.flatten.length ≤ n
  | [], mr, hr, hr', Ar, past, rr, hi, hp, hh => by
    cases hh
    refine ⟨mr, Ar, rfl, rr, ?_⟩
    rw [rr.count]
    have := hist_count hi
    omega
  | k :: ks, mr, hr, hr', Ar, past, rr, hi, hp, hh => by
    rw [List.length_cons] at hp
    simp only [AxlHash.copyItems] at hh
    cases h1 : h.copyItem kc dc hr k with
    | none => simp [h1] at hh
    | some hr1 =>
      simp only [h1, Option.bind_eq_bind, Option.bind_some] at hh
      have hnr : Ar.flatten.length ≤ n := by
        rw [rr.count]
        have := hist_count hi
        omega
      obtain ⟨mr1, Ar1, x, g1, g2, g3⟩ := copyItem_rel r rr hn hnr (AxlHash.table_nil hi.inv.toTInv) h1
      obtain ⟨hr2, g4, g5⟩ := AxlHash.hist_insert hi ⟨kc x, x.keyDestroy, dc x, x.dataDestroy⟩
      simp only [g3, Option.some.injEq] at g4
      subst g4
      obtain ⟨mr', Ar', q1, q2, q3⟩ := copyItems_rel r hn (ks := ks) g2 g5 (by rw [List.length_cons]; omega) hh
      exact ⟨mr', Ar', by simp [copyItems, g1, q1], q2, q3⟩

omit [NullKey κ] in
/-- The destroy functions of a chain. -/
theorem destroyFrom_seg {kd dd : Option φ} : ∀ {n : Nat} {m : MHash κ δ φ} {p : Piece} {as : List Piece} {ns : List (HashNode κ δ φ)},
    HSeg m.mem (some p) as ns none → as.Nodup → as.length ≤ n →
    ∃ mem', destroyFrom kd dd n m p = some { m with mem := mem' } ∧
      HSeg mem' (some p) as (ns.map fun x => { x with keyDestroy := kd, dataDestroy := dd }) none ∧ ∀ q, q ∉ as → mem' q = m.mem q
  | 0, m, p, as, ns, hs, hd, hn => by
    obtain ⟨as', x, ns', nx, rfl, -⟩ := hseg_cons hs
    simp at hn
  | n + 1, m, p, as, ns, hs, hd, hn => by
    obtain ⟨as', x, ns', nx, rfl, rfl, h1, h2⟩ := hseg_cons hs
    rw [List.nodup_cons] at hd
    rw [List.length_cons] at hn
    let c : MNode κ δ φ := ⟨{ x with keyDestroy := kd, dataDestroy := dd }, nx⟩
    have hf : HSeg (m.write p (some c)).mem nx as' ns' none :=
      hseg_frame (fun a ha => by simp only [write]; rw [if_neg]; rintro rfl; exact hd.1 ha) h2
    cases nx with
    | none =>
      obtain ⟨rfl, rfl⟩ := hseg_nil h2
      refine ⟨(m.write p (some c)).mem, by simp [destroyFrom, h1, write, c], ⟨rfl, none, by simp [write, c], rfl⟩, ?_⟩
      intro q hq
      simp only [List.mem_singleton] at hq
      simp [write, hq]
    | some q =>
      obtain ⟨mem', g1, g2, g3⟩ := destroyFrom_seg (kd := kd) (dd := dd) (n := n) hf hd.2 (by omega)
      refine ⟨mem', ?_, ⟨rfl, some q, ?_, g2⟩, ?_⟩
      · simp only [destroyFrom, h1, Option.bind_eq_bind, Option.bind_some]
        rw [g1]
        rfl
      · rw [g3 p hd.1]
        simp [write, c]
      · intro b hb
        simp only [List.mem_cons, not_or] at hb
        rw [g3 b hb.2]
        simp [write, hb.1]

omit [NullKey κ] in
/-- The destroy functions of the table. -/
theorem destroyTable_chains {kd dd : Option φ} {n : Nat} : ∀ {T : List (Option Piece)} {m : MHash κ δ φ} {A : List (List Piece)}
    {H : List (List (HashNode κ δ φ))}, T.length = H.length → A.length = H.length → Chains m.mem T A H → A.flatten.Nodup →
    A.flatten.length ≤ n →
    ∃ mem', destroyTable n kd dd m T = some { m with mem := mem' } ∧
      Chains mem' T A (H.map fun chain => chain.map fun x => { x with keyDestroy := kd, dataDestroy := dd }) ∧
      ∀ q, q ∉ A.flatten → mem' q = m.mem q
  | [], m, [], [], _, _, hc, _, _ => ⟨m.mem, rfl, by intro i p as ns h1; simp at h1, fun _ _ => rfl⟩
  | [], _, _, _ :: _, h, _, _, _, _ => by cases h
  | _ :: _, _, _, [], h, _, _, _, _ => by cases h
  | _ :: _, _, [], _ :: _, _, h, _, _, _ => by cases h
  | [], _, _ :: _, [], _, h, _, _, _ => by cases h
  | t :: T, m, as :: A, ns :: H, hl, ha, hc, hd, hn => by
    simp only [List.length_cons, Nat.add_right_cancel_iff] at hl ha
    rw [List.flatten_cons] at hd hn
    rw [List.length_append] at hn
    obtain ⟨hd1, hd2, hd3⟩ := List.nodup_append.1 hd
    have hs : HSeg m.mem t as ns none := hc 0 t as ns rfl rfl rfl
    cases t with
    | none =>
      obtain ⟨rfl, rfl⟩ := hseg_nil hs
      obtain ⟨mem', g1, g2, g3⟩ := destroyTable_chains (kd := kd) (dd := dd) (n := n) hl ha (chains_tail hc) hd2 (by omega)
      refine ⟨mem', g1, ?_, by simpa using g3⟩
      intro i p as' ns' h1 h2 h3
      cases i with
      | zero =>
        simp only [List.getElem?_cons_zero, Option.some.injEq, List.map_cons, List.map_nil] at h1 h2 h3
        subst h1 h2 h3
        rfl
      | succ i =>
        simp only [List.getElem?_cons_succ, List.map_cons] at h1 h2 h3
        exact g2 i p as' ns' h1 h2 h3
    | some p =>
      obtain ⟨mem1, k1, k2, k3⟩ := destroyFrom_seg (kd := kd) (dd := dd) hs hd1 (n := n) (by omega)
      have hc1 : Chains mem1 T A H := chains_frame (chains_tail hc) fun a hm => k3 a fun hx => hd3 a hx a hm rfl
      obtain ⟨mem', g1, g2, g3⟩ := destroyTable_chains (kd := kd) (dd := dd) (n := n) (m := { m with mem := mem1 }) hl ha hc1 hd2 (by omega)
      refine ⟨mem', by simp [destroyTable, k1, g1], ?_, ?_⟩
      · intro i q as' ns' h1 h2 h3
        cases i with
        | zero =>
          simp only [List.getElem?_cons_zero, Option.some.injEq, List.map_cons] at h1 h2 h3
          subst h1 h2 h3
          exact hseg_frame (fun a hx => g3 a fun hm => hd3 a hx a hm rfl) k2
        | succ i =>
          simp only [List.getElem?_cons_succ, List.map_cons] at h1 h2 h3
          exact g2 i q as' ns' h1 h2 h3
      · intro q hq
        simp only [List.flatten_cons, List.mem_append, not_or] at hq
        rw [g3 q hq.2]
        exact k3 q hq.1

/-- The copy in memory is the copy with lists. -/
theorem copyCommon_rel {m : MHash κ δ φ} {h hr : AxlHash κ δ φ} {A : List (List Piece)} (r : Rel m h A [])
    (hi : AxlHash.Inv h) {n : Nat} (hn : A.flatten.length ≤ n) {kc : HashNode κ δ φ → κ} {dc : HashNode κ δ φ → Option δ}
    {full : Option (Option φ × Option φ)} (junk : Piece → Option Piece) (hh : h.copyCommon kc dc full = some hr)
    (hlen : AxlHash.Inv hr) :
    ∃ mr Ar, m.copyCommon n kc dc full junk = some mr ∧ Rel mr hr Ar [] ∧ Ar.flatten.length ≤ n := by
  obtain ⟨m0, g0, r0⟩ := newFull_rel (δ := δ) (φ := φ) m.hash m.equal m.items junk
  have r1 : Rel { m0 with step := m.step } (AxlHash.newFull h.hash h.equal h.step) [] [] := by
    obtain ⟨a1, a2, a3, a4, a5, a6, a7, a8, a9, a10, a11⟩ := r0
    exact ⟨a1.trans r.hash, a2.trans r.equal, a3, a4, r.step, a6, a7, a8, a9, a10, a11⟩
  have hh0 : AxlHash.Hist h.hash h.equal (AxlHash.newFull h.hash h.equal h.step : AxlHash κ δ φ) [] :=
    AxlHash.hist_new hi.cons hi.step
  unfold AxlHash.copyCommon at hh
  split at hh
  · next hz =>
    cases hh
    exact ⟨{ m0 with step := m.step }, [], by simp [copyCommon, g0, r.size, hz], r1, by simp⟩
  · next hz =>
    have hv := AxlHash.foreachTable_spec h.table (fun _ _ => false) (h.hashSize + 1) 0 (by omega) (by rw [hi.len]; omega)
    rw [hi.len] at hv
    have hall : ((h.table.flatten.takeWhile fun _ => !false) ++ (h.table.flatten.find? fun _ => false).toList) =
        h.table.flatten := by
      rw [List.find?_eq_none.2 (by simp)]
      rw [AxlHash.takeWhile_all (fun _ => false) _ (by simp)]
      simp
    rw [hv] at hh
    simp only [List.drop_zero, hall, Option.bind_eq_bind, Option.bind_some] at hh
    have hfe := foreach_rel r hi.len hn (fun _ _ => false)
    rw [hall] at hfe
    have hh : (h.copyItems kc dc (AxlHash.newFull h.hash h.equal h.step) (h.table.flatten.map (·.key))).bind _ = some hr := hh
    cases hc : h.copyItems kc dc (AxlHash.newFull h.hash h.equal h.step) (h.table.flatten.map (·.key)) with
    | none =>
      rw [hc] at hh
      cases hh
    | some h1 =>
      rw [hc, Option.bind_some] at hh
      obtain ⟨m1, A1, k1, k2, k3⟩ := copyItems_rel r hn (ks := h.table.flatten.map (·.key)) r1 hh0
        (by rw [List.length_map, ← r.count]; simpa using hn) hc
      cases full with
      | none =>
        cases hh
        refine ⟨m1, A1, ?_, k2, k3⟩
        simp only [copyCommon, g0, Option.bind_eq_bind, Option.bind_some, r.size, hz, if_false, hfe, List.map_map, Function.comp_def, k1]
      | some q =>
        obtain ⟨kd, dd⟩ := q
        cases hh
        obtain ⟨mem', g1, g2, -⟩ := destroyTable_chains (kd := kd) (dd := dd) (m := m1) k2.lenT k2.lenA k2.chains
          (by simpa using k2.nodup) k3
        have ht : m1.table.take m1.hashSize = m1.table := by
          have := hlen.len
          simp only [List.length_map] at this
          rw [k2.size, ← this, ← k2.lenT]
          exact List.take_length
        refine ⟨{ m1 with mem := mem' }, A1, ?_, ?_, k3⟩
        · simp only [copyCommon, g0, Option.bind_eq_bind, Option.bind_some, r.size, hz, if_false, hfe, List.map_map, Function.comp_def, k1, ht]
          exact g1
        · obtain ⟨a1, a2, a3, a4, a5, a6, a7, a8, a9, a10, a11⟩ := k2
          exact ⟨a1, a2, a3, a4, a5, a6, a7, by simpa using a8, by simpa using a9, g2, a11⟩

/-- The history of the copy: the copies of the pairs were inserted. -/
theorem copy_hist {h hr : AxlHash κ δ φ} {hash : κ → Nat} {eq : κ → κ → Bool} {past : List (Op κ δ φ)} (hh : AxlHash.Hist hash eq h past)
    {kc : HashNode κ δ φ → κ} {dc : HashNode κ δ φ → Option δ} (hkc : ∀ n ∈ h.table.flatten, eq (kc n) n.key = true)
    {full : Option (Option φ × Option φ)} (hr1 : h.copyCommon kc dc full = some hr) :
    AxlHash.Hist hash eq hr ((h.table.flatten.map fun x =>
      (⟨kc x, (full.map (·.1)).getD x.keyDestroy, dc x, (full.map (·.2)).getD x.dataDestroy⟩ : Entry κ δ φ)).map .insert) := by
  obtain ⟨r, g1, g2, g3, g4, g5⟩ := AxlHash.copyCommon_spec hh.inv kc dc (fun n hn => by rw [hh.equal_eq]; exact hkc n hn) full
  rw [hr1] at g1
  cases g1
  let cp : HashNode κ δ φ → HashNode κ δ φ := fun x =>
    ⟨kc x, (full.map (·.1)).getD x.keyDestroy, dc x, (full.map (·.2)).getD x.dataDestroy⟩
  have hp : hr.table.flatten.Perm (h.table.flatten.map cp) := by
    refine g5.trans ?_
    rcases full with _ | ⟨kd, dd⟩ <;> exact List.Perm.refl _
  have hreq : hr.equal = eq := g3.2.1.trans hh.equal_eq
  have hent : ∀ l : List (Entry κ δ φ), entered (l.map .insert) = l := by
    intro l; induction l with
    | nil => rfl
    | cons a l ih => simp [entered, ih]
  have htk : ∀ l : List (Entry κ δ φ), takenOut eq (l.map .insert) = [] := by
    intro l; induction l with
    | nil => rfl
    | cons a l ih => simp [takenOut, ih]
  have hpr : ∀ (k : κ) (l : List (Entry κ δ φ)), present eq (l.map .insert) k = l.find? fun e => eq e.key k := by
    intro k l; induction l with
    | nil => rfl
    | cons a l ih =>
      simp only [List.map_cons, present, List.find?_cons, ih]
      cases eq a.key k <;> rfl
  have hmap : (h.table.flatten.map fun x => (⟨kc x, (full.map (·.1)).getD x.keyDestroy, dc x, (full.map (·.2)).getD x.dataDestroy⟩ :
      Entry κ δ φ)) = (h.table.flatten.map cp).map AxlHash.toEntry := by
    simp [List.map_map, Function.comp_def, AxlHash.toEntry, cp]
  rw [hmap]
  refine ⟨g2, g3.1.trans hh.hash_eq, hreq, fun k => ?_, [], ?_, ?_, ?_⟩
  · rw [hpr, List.find?_map]
    have := AxlHash.find?_perm (k := k) g2.cons hp g2.diff
    rw [hreq] at this
    rw [this]
    rfl
  · rw [hent, htk]
    simpa using hp.map AxlHash.toEntry
  · rw [g4]; exact List.Perm.refl _
  · rw [g4]; exact List.Perm.refl _

end MHash

namespace MCursor
open MHash
variable [NullKey κ]

omit [NullKey κ] in
theorem lastNode_append (x : HashNode κ δ φ) : ∀ ns : List (HashNode κ δ φ), HashCursor.lastNode (ns ++ [x]) = [x]
  | [] => rfl
  | [a] => rfl
  | a :: b :: ns => by
    have := lastNode_append x (b :: ns)
    simpa [HashCursor.lastNode] using this

omit [NullKey κ] in
/-- The backward search. -/
theorem searchLast_rel {c : MCursor κ δ φ} {c' : HashCursor κ δ φ} {A : List (List Piece)} (r : Rel c.hash c'.hash A []) {n : Nat}
    (hn : A.flatten.length ≤ n) : ∀ (i : Nat), (0 < i → i < c'.hash.table.length) →
    (c.searchLast n i = some (none, 0) ∧ ∀ fuel, i < fuel → c'.initLastLoop fuel i = some ([], 0)) ∨
    ∃ a j x as ns, c.searchLast n i = some (some a, j) ∧ c.hash.mem a = some ⟨x, none⟩ ∧ A[j]? = some (as ++ [a]) ∧
      c'.hash.table[j]? = some (ns ++ [x]) ∧ as.length = ns.length ∧ ∀ fuel, i < fuel → c'.initLastLoop fuel i = some ([x], (j : Int))
  | 0, _ => by
    refine .inl ⟨rfl, fun fuel hf => ?_⟩
    obtain ⟨f, rfl⟩ : ∃ f, fuel = f + 1 := ⟨fuel - 1, by omega⟩
    simp [HashCursor.initLastLoop]
  | i + 1, hi => by
    have hi := hi (by omega)
    obtain ⟨p, as, h1, h2, h3⟩ := r.slot (List.getElem?_eq_getElem hi)
    have hb : c'.bucket ((i + 1 : Nat) : Int) = some c'.hash.table[i + 1] := by
      unfold HashCursor.bucket
      rw [if_neg (by omega), Int.toNat_natCast, List.getElem?_eq_getElem hi]
    cases p with
    | none =>
      obtain ⟨rfl, e⟩ := hseg_nil h3
      have hl : ∀ fuel, c'.initLastLoop (fuel + 1) ((i + 1 : Nat) : Int) = c'.initLastLoop fuel (i : Int) := by
        intro fuel
        rw [HashCursor.initLastLoop, if_pos (by omega), hb, e]
        simp only [Option.bind_eq_bind, Option.bind_some, ne_eq, not_true, if_false]
        congr 1
        omega
      have hs : c.searchLast n (i + 1) = c.searchLast n i := by
        simp [searchLast, h1]
      rcases searchLast_rel r hn i (fun _ => by omega) with ⟨g1, g2⟩ | ⟨a, j, x, as, ns, g1, g2, g3, g4, g5, g6⟩
      · refine .inl ⟨by rw [hs, g1], fun fuel hf => ?_⟩
        obtain ⟨f, rfl⟩ : ∃ f, fuel = f + 1 := ⟨fuel - 1, by omega⟩
        rw [hl, g2 f (by omega)]
      · refine .inr ⟨a, j, x, as, ns, by rw [hs, g1], g2, g3, g4, g5, fun fuel hf => ?_⟩
        obtain ⟨f, rfl⟩ : ∃ f, fuel = f + 1 := ⟨fuel - 1, by omega⟩
        rw [hl, g6 f (by omega)]
    | some p =>
      have hlen := hseg_length h3
      have hne : as ≠ [] := by
        obtain ⟨as', x, ns', nx, e, -⟩ := hseg_cons h3
        rw [e]; simp
      obtain ⟨as', a, ns', x, e1, e2, e3⟩ := last_split hlen hne
      subst e1
      rw [e2] at h3
      have hle := slot_le h2
      rw [List.length_append, List.length_singleton] at hle
      have hla := lastOf_seg e3 h3 (n := n) (by omega)
      obtain ⟨s, -, -, nx, q2, q3⟩ := (hseg_append e3).1 h3
      have q3 : nx = none := q3
      subst q3
      refine .inr ⟨a, i + 1, x, as', ns', by simp [searchLast, h1, hla], q2, h2, by rw [List.getElem?_eq_getElem hi, e2], e3, ?_⟩
      intro fuel hf
      obtain ⟨f, rfl⟩ : ∃ f, fuel = f + 1 := ⟨fuel - 1, by omega⟩
      rw [HashCursor.initLastLoop, if_pos (by omega), hb, e2]
      simp only [Option.bind_eq_bind, Option.bind_some]
      rw [if_pos (by simp), lastNode_append]

/-- The cursor at the last item. -/
theorem last_rel {c : MCursor κ δ φ} {c' c1' : HashCursor κ δ φ} {A : List (List Piece)} (r : Rel c.hash c'.hash A [])
    (hl : c'.hash.table.length = c'.hash.hashSize) {n : Nat} (hn : A.flatten.length ≤ n) (hf : c'.last = some c1') :
    ∃ c1 as, c.last n = some c1 ∧ CRel c1 c1' A as := by
  have hsz := r.size
  unfold HashCursor.last at hf
  by_cases h0 : c'.hash.hashSize = 0
  · have e : c'.initLastLoop (c'.hash.hashSize + 1) ((c'.hash.hashSize : Int) - 1) = some ([], -1) := by
      rw [h0]
      simp [HashCursor.initLastLoop]
    simp only [e, Option.bind_eq_bind, Option.bind_some, ne_eq, not_true, if_false, Option.some.injEq] at hf
    subst hf
    refine ⟨{ c with node := none, index := 0 }, [], by simp [last, hsz, h0, searchLast], r, hl, rfl, rfl, by simp⟩
  · rcases searchLast_rel r hn (c.hash.hashSize - 1) (fun _ => by omega) with ⟨g1, g2⟩ | ⟨a, j, x, as, ns, g1, g2, g3, g4, g5, g6⟩
    · have := g2 (c'.hash.hashSize + 1) (by omega)
      rw [show ((c.hash.hashSize - 1 : Nat) : Int) = (c'.hash.hashSize : Int) - 1 by omega] at this
      simp only [this, Option.bind_eq_bind, Option.bind_some, ne_eq, not_true, if_false, Option.some.injEq] at hf
      subst hf
      exact ⟨{ c with node := none, index := 0 }, [], by simp [last, g1], r, hl, rfl, rfl, by simp⟩
    · have := g6 (c'.hash.hashSize + 1) (by omega)
      rw [show ((c.hash.hashSize - 1 : Nat) : Int) = (c'.hash.hashSize : Int) - 1 by omega] at this
      simp only [this, Option.bind_eq_bind, Option.bind_some] at hf
      rw [if_pos (by simp)] at hf
      simp only [Option.some.injEq] at hf
      subst hf
      exact ⟨{ c with node := some a, index := j }, [a], by simp [last, g1], r, hl, rfl, ⟨rfl, none, g2, rfl⟩,
        fun _ => ⟨as, ns, g3, g4, g5⟩⟩

end MCursor
end Axl
