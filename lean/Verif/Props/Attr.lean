/-
Properties C22 and C23: attributes of a node.
-/
import Verif.Proofs.Attr

namespace Axl
open Spec.Attr Spec.Escape Str

namespace Attrs

theorem decodes_nul {v out : List Char} (h : Decodes v out) (hv : NUL ∉ v) : NUL ∉ out := by
  induction h with
  | nil => simp
  | @entity e t out he _ ih =>
    rw [List.mem_append, not_or] at hv
    rw [List.mem_cons, not_or]
    refine ⟨?_, ih hv.2⟩
    simp only [entities, List.mem_cons, List.not_mem_nil, or_false] at he
    rcases he with rfl | rfl | rfl | rfl | rfl <;> decide
  | other _ _ ih =>
    rw [List.mem_cons, not_or] at hv ⊢
    exact ⟨hv.1, ih hv.2⟩

theorem getValueTrans_of {a : Attrs} {n v : List Char} (h : a.getValue n = some (some v)) (hv : NUL ∉ v) :
    ∃ out, a.getValueTrans n = some (some out) ∧ Decodes v out := by
  obtain ⟨out, rest, g1, g2, -⟩ := Escape.translate_spec v [] hv v.length (Or.inl rfl)
  refine ⟨out, ?_, g2⟩
  unfold getValueTrans Escape.getValueTrans
  rw [h]
  simp only [Escape.strlen_nul _ hv, toStr_spec _ [] hv, Option.bind_eq_bind, Option.bind_some, g1, Option.map_some]
  rw [toStr_spec _ _ (decodes_nul g2 hv)]

end Attrs

open Attrs

/-- **C22** (partial).  After any history, has, get, the translated get, the count and the comparison
with a value answer as the map of names to first values; storage changes between list and hash do
not show.  Missing: histories where a removal leaves ten attributes of eleven while some text with
special characters is stored (see `C22_value_encoded_again_at_ten`). -/
theorem C22_attributes_are_a_map_partial (ops : List Op) (hn : NoNul NUL ops) (hk : Named ops)
    (hp : PlainAtTen ops.reverse) :
    ∃ a, Attrs.empty.run ops = some a ∧
      (∀ n, a.hasAttribute n = some (value ops.reverse n).isSome) ∧
      (∀ n, a.getValue n = some (value ops.reverse n)) ∧
      (∀ n, a.getValueCopy n = some (value ops.reverse n)) ∧
      (∀ n, value ops.reverse n = none → a.getValueTrans n = some none) ∧
      (∀ n v, value ops.reverse n = some v → ∃ out, a.getValueTrans n = some (some out) ∧ Decodes v out) ∧
      (∀ n v, a.hasAttributeValue n v = some (decide (value ops.reverse n = some v))) ∧
      a.numAttributes = some (pairs ops.reverse).length ∧
      a.hasAttributes = !(pairs ops.reverse).isEmpty := by
  have hn' : NoNul NUL (ops.reverse ++ []) := fun op h => hn op (by simpa using h)
  have hk' : Named (ops.reverse ++ []) := fun op h => hk op (by simpa using h)
  obtain ⟨a, h1, h2⟩ := rep_run ops [] rep_empty hn'
  have hok := actual_ok hn'
  rw [List.append_nil] at h2 hok
  rw [actual_eq_pairs hp (by simpa using hk')] at h2 hok
  have hg : ∀ n, a.getValue n = some (value ops.reverse n) := fun n => (rep_find h2 n).2
  refine ⟨a, h1, ?_, hg, hg, ?_, ?_, ?_, rep_num h2⟩
  · intro n
    rw [(rep_find h2 n).1]
    simp [value, List.isSome_find?]
  · intro n h
    simp [getValueTrans, hg, h]
  · intro n v h
    refine getValueTrans_of (by rw [hg, h]) ?_
    unfold value at h
    rw [Option.map_eq_some_iff] at h
    obtain ⟨p, hp, rfl⟩ := h
    exact (hok p (List.mem_of_find?_eq_some hp)).2
  · intro n v
    unfold hasAttributeValue
    rw [hg]
    simp only [Option.bind_eq_bind, Option.bind_some, Option.some.injEq]
    cases value ops.reverse n with
    | none => simp [cmp]
    | some w => rw [cmp_beq]; rw [Bool.eq_iff_iff]; simp

/-- Twelve attributes set, one set again, two removed: the hypotheses hold, across both changes of
storage. -/
def C22_example : List Op :=
  (List.range 12).map (fun i => Op.set ['k', Char.ofNat (97 + i)] ['v', Char.ofNat (97 + i)]) ++
    [.set "kc".toList "again".toList, .remove "ka".toList, .remove "kb".toList, .setRef "x".toList "y".toList true]

example : NoNul NUL C22_example ∧ Named C22_example ∧ PlainAtTen C22_example.reverse := by decide +kernel

example : ((Attrs.empty.run C22_example).bind fun a => do
    let n ← a.numAttributes; let c ← a.getValue "kc".toList; let x ← a.getValue "x".toList; let y ← a.getValue "ka".toList
    some (n, c, x, y)) = some (11, some "vc".toList, some "y".toList, none) := by decide +kernel

/-- **C22** (names).  For names without special characters, and any values, has and the count are
always those of the map: nothing about the names is lost. -/
theorem C22_names (ops : List Op) (hn : NoNul NUL ops) (hk : Named ops) (hp : PlainNames ops) :
    ∃ a, Attrs.empty.run ops = some a ∧
      (∀ n, a.hasAttribute n = some (value ops.reverse n).isSome) ∧
      a.numAttributes = some (pairs ops.reverse).length ∧
      a.hasAttributes = !(pairs ops.reverse).isEmpty := by
  have hn' : NoNul NUL (ops.reverse ++ []) := fun op h => hn op (by simpa using h)
  have hk' : Named (ops.reverse ++ []) := fun op h => hk op (by simpa using h)
  obtain ⟨a, h1, h2⟩ := rep_run ops [] rep_empty hn'
  rw [List.append_nil] at h2
  obtain ⟨e, -⟩ := actual_names (past := ops.reverse) (fun op h => hp op (by simpa using h)) (by simpa using hk')
  have hl : (actual ops.reverse).length = (pairs ops.reverse).length := by
    have := congrArg List.length e; simpa using this
  refine ⟨a, h1, ?_, ?_, ?_⟩
  · intro n
    rw [(rep_find h2 n).1]
    unfold value
    rw [Option.isSome_map, List.isSome_find?]
    have := congrArg (fun l : List (List Char) => l.any (· == n)) e
    simp only [List.any_map, Function.comp_def] at this
    rw [this]
  · rw [(rep_num h2).1, hl]
  · rw [(rep_num h2).2]
    congr 1
    rw [Bool.eq_iff_iff, List.isEmpty_iff_length_eq_zero, List.isEmpty_iff_length_eq_zero, hl]

example : PlainNames C22_example := by decide +kernel

/-- **C22** (text).  The text given to axl_node_set_attribute for a name not present comes back from
axl_node_get_attribute_value_trans, whatever is done later with other names and even if the same name
is set again, until the name is removed (for histories that meet the hypothesis above). -/
theorem C22_text_comes_back_partial (before after : List Op) (n v : List Char) (hname : n ≠ [] ∧ Plain n)
    (hn : NoNul NUL (before ++ .set n v :: after)) (hk : Named (before ++ .set n v :: after))
    (hp : PlainAtTen (before ++ .set n v :: after).reverse)
    (hnew : ∃ a, Attrs.empty.run before = some a ∧ a.hasAttribute n = some false)
    (hkeep : Op.remove n ∉ after) :
    ∃ a, Attrs.empty.run (before ++ .set n v :: after) = some a ∧ a.getValueTrans n = some (some v) := by
  obtain ⟨a, h1, -, -, -, -, h2, -⟩ := C22_attributes_are_a_map_partial _ hn hk hp
  refine ⟨a, h1, ?_⟩
  have hval : value (before ++ .set n v :: after).reverse n = some (encode v) := by
    have hplain : ∀ past past' : List Op, PlainAtTen (past' ++ past) → PlainAtTen past := by
      intro past past'
      induction past' with
      | nil => exact id
      | cons op ops ih =>
        intro h
        apply ih
        cases op with
        | set _ _ => exact h
        | setRef _ _ _ => exact h
        | remove _ => exact h.1
    have hrev : (before ++ .set n v :: after).reverse = after.reverse ++ .set n v :: before.reverse := by simp
    rw [hrev] at hp ⊢
    have hbefore : PlainAtTen before.reverse := by
      have := hplain _ _ hp
      exact this
    obtain ⟨a0, k1, k2, -⟩ := C22_attributes_are_a_map_partial before (fun op h => hn op (by simp [h]))
      (fun op h => hk op (by simp [h])) hbefore
    obtain ⟨a1, k3, k4⟩ := hnew
    rw [k1] at k3
    cases k3
    have hnone : value before.reverse n = none := by
      have := k2 n
      rw [k4] at this
      simpa using this
    have habs : (pairs before.reverse).any (fun p => p.1 == n) = false := by
      unfold value at hnone
      rw [Option.map_eq_none_iff, List.find?_eq_none] at hnone
      rw [List.any_eq_false]
      exact hnone
    have hset : value (.set n v :: before.reverse) n = some (encode v) := by
      unfold value
      rw [pairs, encode_plain hname.2, if_neg (by simp [habs, hname.1])]
      simp
    clear hrev h1 h2 hn hk hp hbefore k1 k2 k4 a a0
    have key : ∀ l : List Op, Op.remove n ∉ l → value (l ++ .set n v :: before.reverse) n = some (encode v) := by
      intro l
      induction l with
      | nil => intro _; exact hset
      | cons op l ih =>
        intro hl
        have ih := ih (fun h => hl (by simp [h]))
        have hhas : (pairs (l ++ .set n v :: before.reverse)).any (fun p => p.1 == n) = true := by
          unfold value at ih
          rw [Option.map_eq_some_iff] at ih
          obtain ⟨p, hp, -⟩ := ih
          rw [← List.isSome_find?, hp]; rfl
        have hother : ∀ k w, k ≠ n → ((k, w) :: pairs (l ++ .set n v :: before.reverse)).find? (fun p => p.1 == n) =
            (pairs (l ++ .set n v :: before.reverse)).find? (fun p => p.1 == n) := by
          intro k w hkn
          rw [List.find?_cons, beq_false_of_ne hkn]
        cases op with
        | set k w =>
          unfold value
          rw [List.cons_append, pairs]
          split
          · exact ih
          · next hc =>
            rw [hother]
            · exact ih
            · rintro he
              rw [he] at hc
              exact hc (Or.inr hhas)
        | setRef k w f =>
          unfold value
          rw [List.cons_append, pairs]
          split
          · exact ih
          · next hc =>
            rw [hother]
            · exact ih
            · rintro rfl
              exact hc hhas
        | remove k =>
          have hkn : n ≠ k := by rintro rfl; exact hl (by simp)
          unfold value at ih ⊢
          rw [List.cons_append, pairs]
          rw [List.find?_filter]
          rw [← ih]
          congr 2
          funext p
          by_cases hpn : p.1 = n
          · simp [hpn, hkn]
          · simp [hpn]
    exact key after.reverse (by simpa using hkeep)
  obtain ⟨out, g1, g2⟩ := h2 n _ hval
  rw [g1]
  rw [encode_eq] at g2
  rw [Escape.decodes_unique g2 (Escape.decodes_esc v)]

example : ((Attrs.empty.run [.set "a".toList "x<y".toList, .set "a".toList "z".toList, .set "b".toList "&".toList,
    .remove "b".toList]).bind fun a => a.getValueTrans "a".toList) = some (some "x<y".toList) := by decide +kernel

/-- **C22 fails** without the hypothesis: with eleven attributes, removing one changes the text of
another one from `a&b` to `a&amp;b`. -/
theorem C22_value_encoded_again_at_ten :
    let ops := (List.range 10).map (fun i => Op.set ['k', Char.ofNat (97 + i)] []) ++ [.set "x".toList "a&b".toList]
    ((Attrs.empty.run ops).bind fun a => a.getValueTrans "x".toList) = some (some "a&b".toList) ∧
    ((Attrs.empty.run (ops ++ [.remove "ka".toList])).bind fun a => a.getValueTrans "x".toList) =
      some (some "a&amp;b".toList) := by decide +kernel

theorem Attrs.rep_lists {a : Attrs} {ps qs : List (List Char × List Char)} (h : Rep a ps) (hp : qs.Perm ps) : a.Lists qs := by
  have hd : (qs.map (·.1)).Nodup := (hp.map _).nodup_iff.2 h.1
  refine ⟨fun n v => ?_, hd, by rw [(rep_num h).1, hp.length_eq]⟩
  rw [(rep_find h n).2, ← find?_key_perm n hp hd]
  constructor
  · intro hm
    obtain ⟨s, t, rfl⟩ := List.append_of_mem hm
    rw [List.map_append, List.map_cons, List.nodup_append, List.nodup_cons] at hd
    have : s.find? (fun p => p.1 == n) = none := by
      rw [List.find?_eq_none]
      intro p hp he
      exact hd.2.2 p.1 (List.mem_map.2 ⟨p, hp, rfl⟩) n (by simp) (by simpa using he)
    rw [List.find?_append, this]
    simp
  · intro h
    rw [Option.some.injEq, Option.map_eq_some_iff] at h
    obtain ⟨p, hp, rfl⟩ := h
    have h1 := List.find?_some hp
    have : p.1 = n := by simpa using h1
    rw [← this]
    exact List.mem_of_find?_eq_some hp

/-- **C23**.  After any history, axl_node_attr_foreach calls the function once for each attribute of the
node, with its value, and for no other, in some order, until the function says to stop. -/
theorem C23_foreach (ops : List Op) (hn : NoNul NUL ops) :
    ∃ (a : Attrs) (qs : List (List Char × List Char)), Attrs.empty.run ops = some a ∧ a.Lists qs ∧
      a.foreach (fun _ _ => false) = some (qs.map fun p => (p.1, some p.2)) ∧
      ∀ stop : List Char → List Char → Bool, a.foreach stop =
        some ((qs.takeWhile (fun p => !stop p.1 p.2) ++ (qs.find? fun p => stop p.1 p.2).toList).map
          fun p => (p.1, some p.2)) := by
  have hn' : NoNul NUL (ops.reverse ++ []) := fun op h => hn op (by simpa using h)
  obtain ⟨a, h1, h2⟩ := rep_run ops [] rep_empty hn'
  obtain ⟨qs, g1, g2⟩ := rep_foreach h2
  refine ⟨a, qs, h1, rep_lists h2 g1, ?_, g2⟩
  rw [g2, List.find?_eq_none.2 (by simp), AxlHash.takeWhile_all (fun _ => false) _ (by simp)]
  simp

/-- The names in `pairs` are all different: `value` loses nothing. -/
theorem C23_names_once (past : List Op) : ((pairs past).map (·.1)).Nodup := by
  induction past with
  | nil => simp [pairs]
  | cons op past ih =>
    cases op with
    | set n v =>
      rw [pairs]
      split
      · exact ih
      · next h =>
        rw [List.map_cons, List.nodup_cons]
        exact ⟨any_key_mem.1 (Bool.eq_false_iff.2 fun h' => h (Or.inr h')), ih⟩
    | setRef n v f =>
      rw [pairs]
      split
      · exact ih
      · next h =>
        rw [List.map_cons, List.nodup_cons]
        exact ⟨any_key_mem.1 (Bool.eq_false_iff.2 h), ih⟩
    | remove n =>
      rw [pairs]
      exact List.Nodup.sublist (List.Sublist.map _ List.filter_sublist) ih

/-- **C23** (cursor).  A new cursor, and any cursor taken to the first attribute again, reads each
attribute present once and no other, in the order of axl_node_attr_foreach. -/
theorem C23_cursor (ops : List Op) (hn : NoNul NUL ops) :
    ∃ (a : Attrs) (qs : List (List Char × List Char)) (c : AttrCursor), Attrs.empty.run ops = some a ∧ a.Lists qs ∧
      a.foreach (fun _ _ => false) = some (qs.map fun p => (p.1, some p.2)) ∧
      AttrCursor.new a = some c ∧ c.Reads qs ∧
      ∀ c, AttrCursor.MovedFrom a c → ∃ c1, c.first = some c1 ∧ c1.Reads qs := by
  have hn' : NoNul NUL (ops.reverse ++ []) := fun op h => hn op (by simpa using h)
  obtain ⟨a, h1, h2⟩ := rep_run ops [] rep_empty hn'
  obtain ⟨qs, g1, ⟨c, g2, g3⟩, g4, g6⟩ := AttrCursor.rep_cursor h2
  exact ⟨a, qs, c, h1, rep_lists h2 g1, g6, g2, g3, g4⟩

example : ((Attrs.empty.run C22_example).bind fun a => do
    let ps ← a.foreach (fun _ _ => false); let qs ← a.foreach (fun n _ => n == "kd".toList)
    some (ps.length, qs.getLast?)) =
    some (11, some ("kd".toList, some "vd".toList)) := by decide +kernel

end Axl
