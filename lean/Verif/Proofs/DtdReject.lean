/-
DTDs that axl_dtd_parse refuses.
-/
import Verif.Proofs.DtdSource
import Verif.Proofs.DtdFuel

namespace Axl.Dtd
open Str Stream Spec.Xml Spec.RoundTrip Source

/-- A text whose declarations are written as XML asks is accepted only if they meet the constraints. -/
theorem parse_only_valid {x : Subset} (h : x.Written) {fuel : Nat} {d : Dtd} (hp : parse fuel x.chars = .ok d) : x.Valid ∧ x.Means d := by
  have hp' : parse (fuel + x.chars.length + 1) x.chars = .ok d := by
    rw [parse_mono (fuel := fuel) (by omega) (by rw [hp]; simp), hp]
  have hm : x.Means d := by
    rcases declarations_or h (fuel := fuel + x.chars.length + 1) (by omega) with ⟨d0, h1, h2⟩ | ⟨h1, -⟩
    · unfold parse at hp'
      rw [h1] at hp'
      simp only at hp'
      have hr : ∃ root, d = { d0 with root := root } := by
        unfold conclude at hp'
        simp only at hp'
        split at hp'
        · split at hp'
          · cases hp'
          · cases hp'
            exact ⟨_, rfl⟩
        all_goals cases hp'
      obtain ⟨root, rfl⟩ := hr
      exact ⟨h2.elements, h2.entities, h2.attributes⟩
    · unfold parse at hp'
      rw [h1] at hp'
      cases hp'
  have hw := parse_wellFormed hp
  have hin : ∀ n, x.attributes n = [] ∨ ∃ al ∈ d.attributes, al.decls = x.attributes n := by
    intro n
    rcases hm.attributes n with ⟨-, h1⟩ | ⟨al, h1, -, h2, -⟩
    · exact .inl h1
    · exact .inr ⟨al, List.mem_of_find?_eq_some h1, h2⟩
  refine ⟨{ h with
    names := by rw [← hm.elements]; exact hw.names
    oneId := ?_, notFixed := ?_, enums := ?_, resolved := ?_ }, hm⟩
  · intro n a ha b hb
    rcases hin n with h1 | ⟨al, h1, h2⟩
    · rw [h1] at ha; cases ha
    · rw [← h2] at ha hb
      exact hw.oneId al h1 a ha b hb
  · intro n a ha ht hfix
    rcases hin n with h1 | ⟨al, h1, h2⟩
    · rw [h1] at ha; cases ha
    · rw [← h2] at ha
      rcases hw.notFixed al h1 a ha ht with h3 | h3 <;> rw [h3] at hfix <;> cases hfix
  · intro n a ha
    rcases hin n with h1 | ⟨al, h1, h2⟩
    · rw [h1] at ha; cases ha
    · rw [← h2] at ha
      exact hw.enums al h1 a ha
  · rintro ⟨n, a, ha, ht⟩
    have h1 : d.Declares fun t => t = .idref ∨ t = .idrefs := by
      rcases hin n with h1 | ⟨al, h1, h2⟩
      · rw [h1] at ha; cases ha
      · exact ⟨al, h1, a, h2 ▸ ha, ht⟩
    obtain ⟨al, hal, b, hb, hbt⟩ := hw.resolved h1
    refine ⟨al.name, b, ?_, hbt⟩
    rcases hm.attributes al.name with ⟨h3, -⟩ | ⟨al', h3, -, h4, -⟩
    · rw [attr_of_nodup hw.lists hal] at h3; cases h3
    · rw [attr_of_nodup hw.lists hal] at h3
      cases h3
      rw [← h4]
      exact hb

/-! ### Both separators -/

theorem Cp.head (p : Cp) (hv : p.Valid) (rest : List Char) (y : Char) (z : List Char) (h : skip (p.chars ++ rest) = y :: z) : y ≠ ')' :=
  Cps.head true (.last p) hv rest y z h

/-- The particles of a list that is not finished. -/
theorem begun_all (choice : Bool) {rest : List Char} {Q : Res (Reading × List Char) → Prop} (hr : ∀ y z, skip rest = y :: z → y ≠ ')') :
    ∀ (items : List Cp) (r : Reading), (∀ p ∈ items, p.Valid) → Fits choice r.cur.kind →
    (∀ r' : Reading, ((∃ p ∈ items, p.isName = true) ∨ r.cur.kind = saysKind choice → r'.cur.kind = saysKind choice) → Spells r' rest Q) →
    Spells r (items.flatMap (fun p => p.chars ++ [between choice]) ++ rest) Q
  | [], r, _, _, h => h r (by simp)
  | p :: items, r, hv, hf, h => by
    have hvp := hv p (List.mem_cons_self ..)
    simp only [List.flatMap_cons, List.append_assoc, List.cons_append, List.nil_append]
    refine cp_more p choice r _ Q hvp hf ?_ ?_
    · cases items with
      | nil => exact hr
      | cons q items =>
        simp only [List.flatMap_cons, List.append_assoc]
        exact Cp.head q (hv q (by simp)) _
    · refine begun_all choice hr items _ (fun q hq => hv q (List.mem_cons_of_mem _ hq)) ?_ ?_
      · simp only [Reading.add]
        split
        · exact .inr rfl
        · exact hf
      · intro r' hr'
        refine h r' fun hx => hr' ?_
        simp only [Reading.add]
        rcases hx with ⟨q, hq, hn⟩ | hk
        · rcases List.mem_cons.1 hq with rfl | hq
          · exact .inr (by rw [if_pos hn])
          · exact .inl ⟨q, hq, hn⟩
        · right
          split
          · rfl
          · exact hk

/-- The other separator after a name. -/
theorem spells_other {r : Reading} {g n g' rest : List Char} {t : Times} {choice : Bool} (hg : Blank g) (hn : Bare n)
    (hg' : Blank g') (hk : r.cur.kind = saysKind choice) : Spells r (g ++ (n ++ (sign t ++ (g' ++ between (!choice) :: rest)))) (· = .error) := by
  intro fuel
  cases fuel with
  | zero => exact .inl rfl
  | succ fuel =>
    right
    obtain ⟨f, h1, h2, chunk, s, h3, h4, h5⟩ := particle_of hn t hg' (c := between !choice) (by cases choice <;> simp [IsSep, between]) rest
    obtain ⟨h6, h7⟩ := plain_skip hg hn (sign t ++ (g' ++ between (!choice) :: rest))
    rw [specLoop, h6, h7]
    simp only
    rw [h1]
    simp only
    rw [h3]
    simp only
    rw [h5]
    simp only
    rw [show kindAfter r.cur.kind (numberOf (between !choice)) = none by rw [hk]; cases choice <;> decide]

/-- The lists around. -/
theorem outer_all {rest : List Char} {Q : Res (Reading × List Char) → Prop} :
    ∀ (outer : List (Begun × List Char)) (r : Reading), (∀ o ∈ outer, (∀ p ∈ o.1.items, p.Valid) ∧ Blank o.2) → r.cur.kind = .undef →
    (∀ r' : Reading, r'.cur.kind = .undef → Spells r' rest Q) →
    Spells r (outer.flatMap (fun o => o.1.chars ++ o.2 ++ c!"(") ++ rest) Q
  | [], r, _, hk, h => h r hk
  | o :: outer, r, hv, hk, h => by
    obtain ⟨h1, h2⟩ := hv o (List.mem_cons_self ..)
    rw [show (o :: outer).flatMap (fun o => o.1.chars ++ o.2 ++ c!"(") ++ rest = o.1.items.flatMap (fun p => p.chars ++ [between o.1.choice]) ++
      (o.2 ++ '(' :: (outer.flatMap (fun o => o.1.chars ++ o.2 ++ c!"(") ++ rest)) by simp [Begun.chars]]
    refine begun_all o.1.choice ?_ _ r h1 (.inl hk) ?_
    · intro y z hyz
      rw [skip_gap h2 (not_white _)] at hyz
      cases hyz
      decide
    · intro r' _
      exact spells_open h2 (outer_all outer _ (fun q hq => hv q (List.mem_cons_of_mem _ hq)) rfl h)

theorem readSpec_both {x : BothSeparators} (h : x.Valid) (rest : List Char) : readSpec (x.chars ++ rest) = .error := by
  have hs : Spells ⟨⟨.undef, .one, []⟩, [], .children, false⟩ (x.chars.tail ++ rest) (· = .error) := by
    rw [show x.chars.tail ++ rest = x.outer.flatMap (fun o => o.1.chars ++ o.2 ++ c!"(") ++ (x.inner.items.flatMap (fun p => p.chars ++
      [between x.inner.choice]) ++ ((Cp.name x.gap x.name x.times x.gapEnd).chars ++ between (!x.inner.choice) :: rest)) by
      simp [BothSeparators.chars, Begun.chars]]
    refine outer_all x.outer _ h.outer rfl fun r hk => ?_
    refine begun_all x.inner.choice ?_ _ r h.inner (.inl hk) fun r' hr' => ?_
    · exact Cp.head _ h.last _
    · simp only [Cp.chars, List.append_assoc]
      exact spells_other h.last.1 h.last.2.1.plain h.last.2.2 (hr' (.inl h.named))
  have hc : x.chars ++ rest = '(' :: (x.chars.tail ++ rest) := by simp [BothSeparators.chars]
  rw [hc]
  unfold readSpec
  have h1 : inspect (skip ('(' :: (x.chars.tail ++ rest))) c!"(" = .yes (x.chars.tail ++ rest) := by
    rw [skip_cons_not (not_white _)]
    simp [inspect, List.isPrefixOf]
  rw [h1]
  simp only
  have h2 := specLoop_sat (fuel := (x.chars.tail ++ rest).length + 1) (r := ⟨⟨.undef, .one, []⟩, [], .children, false⟩) (Nat.lt_succ_self _)
  rcases hs ((x.chars.tail ++ rest).length + 1) with h3 | h3
  · rw [h3] at h2; exact h2.elim
  · rw [h3]

theorem element_both {d : Dtd} {g n g' : List Char} {x : BothSeparators} (hg : Gap g) (hn : DtdName n) (hg' : Gap g') (hx : x.Valid)
    (rest : List Char) : parseElement d (c!"<!ELEMENT" ++ (g ++ (n ++ (g' ++ (x.chars ++ rest))))) = .error := by
  unfold parseElement
  rw [show skip (c!"<!ELEMENT" ++ (g ++ (n ++ (g' ++ (x.chars ++ rest))))) =
    c!"<!ELEMENT" ++ (g ++ (n ++ (g' ++ (x.chars ++ rest)))) from skip_cons_not (not_white _), eat_append]
  simp only
  rw [hn.skip hg.1]
  obtain ⟨w, g'', rfl, hw, -⟩ := blank_cons hg'
  have hm1 : matchAt [c!">", c!"(", c!" "] w (g'' ++ (x.chars ++ rest)) = some (2, 1) := by
    rw [matchAt_element, if_pos ((white_iff w).2 hw)]
  rw [List.cons_append, getUntil_of hm1 n]
  · simp only
    rw [if_neg (by decide)]
    have : elementType (w :: (g'' ++ (x.chars ++ rest))) = .error := by
      unfold elementType
      rw [← List.cons_append]
      have hc : x.chars ++ rest = '(' :: (x.chars.tail ++ rest) := by simp [BothSeparators.chars]
      have hr := readSpec_both hx rest
      rw [hc] at hr ⊢
      rw [skip_gap hg'.1 (not_white _), eat_none.2 (by simp), eat_none.2 (by simp)]
      exact hr
    rw [this]
  · intro a c y hx
    have hc : c ∈ n := by rw [hx]; simp
    have h1 := hn.white c hc
    have h2 := (hn.1.2 c hc).2
    have h3 := hn.2 c hc
    rw [matchAt_element, if_neg (by rw [Bool.not_eq_true, white_false]; exact h1)]
    simp only [List.mem_cons, List.not_mem_nil, or_false, not_or] at h2 h3
    rw [if_neg h2.2.2.1, if_neg h3.2.2.1]

theorem parse_both {ds : List (List Char × Decl)} (hd : ∀ p ∈ ds, Remarks p.1 ∧ p.2.Valid) {m g n g' : List Char} {x : BothSeparators} (hm : Remarks m)
    (hg : Gap g) (hn : DtdName n) (hg' : Gap g') (hx : x.Valid) (rest : List Char) {fuel : Nat}
    (hf : (ds.flatMap fun p => p.1 ++ p.2.chars).length < fuel) :
    parse fuel ((ds.flatMap fun p => p.1 ++ p.2.chars) ++ (m ++ (c!"<!ELEMENT" ++ (g ++ (n ++ (g' ++ (x.chars ++ rest))))))) = .error := by
  obtain ⟨hlen, hmem⟩ := decls_length ds
  have key : declarations fuel ((ds.flatMap fun p => p.1 ++ p.2.chars) ++ (m ++ (c!"<!ELEMENT" ++ (g ++ (n ++ (g' ++ (x.chars ++ rest))))))) = .error := by
    unfold declarations
    obtain ⟨k, hk⟩ : ∃ k, fuel + 5 = k + 1 + ds.length := ⟨fuel + 4 - ds.length, by omega⟩
    rw [hk]
    rcases parseLoop_or (fuel := fuel) (m ++ (c!"<!ELEMENT" ++ (g ++ (n ++ (g' ++ (x.chars ++ rest)))))) ds [] (k + 1) Dtd.new has_new
      (fun p hp => ⟨(hd p hp).1, (hd p hp).2, by have := hmem p hp; omega⟩) with ⟨d', h1, -⟩ | ⟨h1, -⟩
    · rw [h1, parseLoop, if_neg (by simp)]
      rw [dtdComments_of hm (by rw [List.cons_append, skip_cons_not (not_white _)]) (by simp)]
      simp only
      unfold declaration
      rw [if_pos (peek_iff.2 ⟨_, rfl⟩), element_both hg hn hg' hx]
    · exact h1
  unfold parse
  rw [key]

end Axl.Dtd
