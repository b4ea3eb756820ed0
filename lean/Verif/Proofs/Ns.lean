/-
Proofs about `Verif.Model.Ns`.
-/
import Verif.Model.Ns
import Verif.Spec.Ns
import Verif.Proofs.Annotate
import Verif.Proofs.Compare

namespace Axl.NsState
open Spec.Tree Spec.Tree.Forest Spec.Annotate Spec.Map Spec.Ns AxlHash Notes

/-! ### Names -/

theorem colonFrom_spec : ∀ (s : List Char) (i : Nat),
    colonFrom i s = if ':' ∈ s then some (i + (s.takeWhile fun c => c != ':').length) else none
  | [], i => by simp [colonFrom]
  | c :: cs, i => by
    unfold colonFrom
    by_cases h : c = ':'
    · subst h; simp
    · rw [if_neg h, colonFrom_spec cs (i + 1)]
      have h1 : ':' ≠ c := fun e => h e.symm
      simp only [List.mem_cons, h1, false_or, List.takeWhile_cons, bne_iff_ne, ne_eq, h, not_false_eq_true, if_true, List.length_cons]
      split <;> simp; omega

theorem take_takeWhile (p : Char → Bool) : ∀ s : List Char, s.take (s.takeWhile p).length = s.takeWhile p
  | [] => rfl
  | c :: cs => by
    rw [List.takeWhile_cons]
    split
    · rw [List.length_cons, List.take_succ_cons, take_takeWhile p cs]
    · rfl

theorem drop_takeWhile (p : Char → Bool) : ∀ s : List Char, s.drop ((s.takeWhile p).length + 1) = (s.dropWhile p).drop 1
  | [] => rfl
  | c :: cs => by
    rw [List.takeWhile_cons, List.dropWhile_cons]
    split
    · rw [List.length_cons, List.drop_succ_cons, drop_takeWhile p cs]
    · rfl

theorem isXmlns_iff (s : List Char) : isXmlns s = true ↔ c!"xmlns" <+: s := by
  unfold isXmlns
  exact List.isPrefixOf_iff_prefix

theorem decl_isXmlns {s : List Char} (h : IsDeclaration s) : isXmlns s = true := by
  rw [isXmlns_iff]
  rcases h with rfl | ⟨t, rfl⟩
  · exact List.prefix_rfl
  · exact ⟨':' :: t, rfl⟩

theorem decl_length {s : List Char} (h : IsDeclaration s) : s.length = 5 ↔ s = c!"xmlns" := by
  rcases h with rfl | ⟨t, rfl⟩
  · simp
  · simp

theorem decl_drop {s : List Char} (h : IsDeclaration s) (hs : s ≠ c!"xmlns") : s = c!"xmlns:" ++ s.drop 6 := by
  rcases h with rfl | ⟨t, rfl⟩
  · exact (hs rfl).elim
  · simp

/-! ### What the table of a node says -/

/-- The prefixes that the attributes declare, with their values. -/
def decls (ds : Pairs) : Pairs :=
  ds.filterMap fun x => if isXmlns x.1 && x.1.length != 5 then some (x.1.drop 6, x.2) else none

theorem decls_append (a b : Pairs) : decls (a ++ b) = decls a ++ decls b := List.filterMap_append

/-- All the attributes that begin with "xmlns" are declarations. -/
def Clean (ds : Pairs) : Prop := ∀ x ∈ ds, isXmlns x.1 = true → IsDeclaration x.1

theorem decls_find : ∀ (ds : Pairs), Clean ds → ∀ pre, (decls ds).find? (fun p => p.1 == pre) =
    (ds.find? fun x => x.1 == c!"xmlns:" ++ pre).map fun x => (x.1.drop 6, x.2)
  | [], _, pre => rfl
  | x :: ds, hc, pre => by
    have ih := decls_find ds (fun y hy => hc y (List.mem_cons_of_mem _ hy)) pre
    have hx := hc x (List.mem_cons_self ..)
    unfold decls at ih ⊢
    rw [List.filterMap_cons]
    by_cases h1 : isXmlns x.1 = true
    · have hd := hx h1
      by_cases h2 : x.1 = c!"xmlns"
      · have : (isXmlns x.1 && x.1.length != 5) = false := by rw [h2]; rfl
        rw [this, List.find?_cons_of_neg (by rw [h2]; simp)]
        exact ih
      · have h3 : x.1.length ≠ 5 := fun e => h2 ((decl_length hd).1 e)
        have : (isXmlns x.1 && x.1.length != 5) = true := by simp [h1, h3]
        rw [this, if_pos rfl]
        by_cases h4 : x.1.drop 6 = pre
        · have h5 : x.1 = c!"xmlns:" ++ pre := by rw [← h4]; exact decl_drop hd h2
          rw [List.find?_cons_of_pos (by simpa using h4), List.find?_cons_of_pos (by simpa using h5)]
          rfl
        · have h5 : x.1 ≠ c!"xmlns:" ++ pre := by
            intro e; rw [e] at h4; simp at h4
          rw [List.find?_cons_of_neg (by simpa using h4), List.find?_cons_of_neg (by simpa using h5)]
          exact ih
    · have : (isXmlns x.1 && x.1.length != 5) = false := by simp [h1]
      rw [this, List.find?_cons_of_neg]
      · exact ih
      · intro e
        apply h1
        rw [isXmlns_iff, of_decide_eq_true (by simpa using e : decide (x.1 = c!"xmlns:" ++ pre) = true)]
        exact ⟨':' :: pre, rfl⟩

theorem decls_mem {ds : Pairs} {y : List Char × List Char} (h : y ∈ decls ds) : ∃ x ∈ ds, isXmlns x.1 = true ∧ x.1.length ≠ 5 ∧ y = (x.1.drop 6, x.2) := by
  unfold decls at h
  obtain ⟨x, hx, he⟩ := List.mem_filterMap.1 h
  split at he
  · next hc => simp at hc; exact ⟨x, hx, hc.1, hc.2, by simpa using he.symm⟩
  · exact absurd he (by simp)

theorem decls_nodup : ∀ (ds : Pairs), Clean ds → (ds.map (·.1)).Nodup → ((decls ds).map (·.1)).Nodup
  | [], _, _ => by simp [decls]
  | x :: ds, hc, hd => by
    rw [List.map_cons, List.nodup_cons] at hd
    have ih := decls_nodup ds (fun y hy => hc y (List.mem_cons_of_mem _ hy)) hd.2
    have e : decls (x :: ds) = decls [x] ++ decls ds := decls_append [x] ds
    rw [e]
    by_cases h : (isXmlns x.1 && x.1.length != 5) = true
    · have : decls [x] = [(x.1.drop 6, x.2)] := by simp only [decls, List.filterMap_cons, h, if_true, List.filterMap_nil]
      rw [this, List.singleton_append, List.map_cons, List.nodup_cons]
      refine ⟨?_, ih⟩
      intro hm
      obtain ⟨y, hy, hyx⟩ := List.mem_map.1 hm
      obtain ⟨z, hz, h1, h2, rfl⟩ := decls_mem hy
      simp only [Bool.and_eq_true, bne_iff_ne, ne_eq] at h
      have d1 := hc x (List.mem_cons_self ..) h.1
      have d2 := hc z (List.mem_cons_of_mem _ hz) h1
      have e1 := decl_drop d1 (fun e => h.2 (by rw [e]; rfl))
      have e2 := decl_drop d2 (fun e => h2 (by rw [e]; rfl))
      simp only at hyx
      rw [hyx, ← e1] at e2
      exact hd.1 (List.mem_map.2 ⟨z, hz, e2⟩)
    · have : decls [x] = [] := by
        have h' : (isXmlns x.1 && x.1.length != 5) = false := by simpa using h
        simp only [decls, List.filterMap_cons, h', List.filterMap_nil]
        rfl
      rw [this]
      exact ih

abbrev hashF : List Char → Nat := fun s => hashString (some s)
abbrev eqF : List Char → List Char → Bool := fun a b => hashEqualString (some a) (some b)

theorem eqF_iff (a b : List Char) : eqF a b = true ↔ a = b := C09_string_functions_consistent.2 a b

/-- The history of the hash of a table, newest first. -/
def past (ds : Pairs) : List (Op (List Char) (List Char) Unit) :=
  (decls ds).reverse.map fun x => .insert ⟨x.1, none, some x.2, none⟩

theorem present_past (l : Pairs) (k : List Char) :
    present eqF (l.map fun x => (Op.insert ⟨x.1, none, some x.2, none⟩ : Op (List Char) (List Char) Unit)) k =
      (l.find? fun x => x.1 == k).map fun x => ⟨x.1, none, some x.2, none⟩ := by
  induction l with
  | nil => rfl
  | cons x l ih =>
    rw [List.map_cons]
    by_cases h : x.1 = k
    · rw [List.find?_cons_of_pos (by simpa using h)]
      have := (eqF_iff x.1 k).2 h
      simp [present, this]
    · rw [List.find?_cons_of_neg (by simpa using h), ← ih]
      have : eqF x.1 k = false := by
        cases e : eqF x.1 k with
        | false => rfl
        | true => exact (h ((eqF_iff _ _).1 e)).elim
      simp [present, this]

theorem present_decls {ds : Pairs} (hc : Clean ds) (hd : (ds.map (·.1)).Nodup) (pre : List Char) :
    (present eqF (past ds) pre).bind (·.data) = valueOf ds (c!"xmlns:" ++ pre) ∧
    (present eqF (past ds) pre).isSome = (valueOf ds (c!"xmlns:" ++ pre)).isSome := by
  have hn := decls_nodup ds hc hd
  have e : (decls ds).reverse.find? (fun p => p.1 == pre) = (decls ds).find? fun p => p.1 == pre :=
    (Attrs.find?_key_perm pre (List.reverse_perm _).symm hn).symm
  unfold past valueOf
  rw [present_past, e, decls_find ds hc pre]
  cases ds.find? fun x => x.1 == c!"xmlns:" ++ pre <;> simp

/-- The table says what the attributes declare. -/
structure TableFor (t : NsTable) (ds : Pairs) : Prop where
  dflt : t.defaultNs = valueOf ds c!"xmlns"
  hist : Hist hashF eqF (t.table.getD newHash) (past ds)
  none : t.table = none → past ds = []

theorem hist_newHash : Hist hashF eqF newHash [] := hist_new C09_string_functions_consistent.1 (by decide)

/-! ### The state -/

/-- The data under the key of the tables. -/
def here (st : NsState) (n : Nat) : Option (Option Note) := st.notes.getHere n nsKey

structure Wf (st : NsState) : Prop where
  notes : ∃ cs, After st.notes cs
  bound : ∀ m q, st.here m = some (some (.pointer q)) → q < st.next

theorem here_total {st : NsState} (W : Wf st) (n : Nat) : ∃ r, st.here n = some r := by
  obtain ⟨cs, A⟩ := W.notes
  exact ⟨_, getHere_spec A n nsKey⟩

/-- From one state to another only the nodes of `S` have other data. -/
structure Frame (S : Nat → Prop) (st st' : NsState) : Prop where
  wf     : Wf st'
  next   : st.next ≤ st'.next
  here   : ∀ m, ¬ S m → st'.here m = st.here m
  tables : ∀ q, q < st.next → st'.tables q = st.tables q

theorem Frame.refl {S : Nat → Prop} {st : NsState} (W : Wf st) : Frame S st st := ⟨W, Nat.le_refl _, fun _ _ => rfl, fun _ _ => rfl⟩

theorem Frame.trans {S : Nat → Prop} {a b c : NsState} (h1 : Frame S a b) (h2 : Frame S b c) : Frame S a c :=
  ⟨h2.wf, Nat.le_trans h1.next h2.next, fun m hm => (h2.here m hm).trans (h1.here m hm),
   fun q hq => (h2.tables q (Nat.lt_of_lt_of_le hq h1.next)).trans (h1.tables q hq)⟩

theorem Frame.mono {S S' : Nat → Prop} {a b : NsState} (h : Frame S a b) (hs : ∀ m, S m → S' m) : Frame S' a b :=
  ⟨h.wf, h.next, fun m hm => h.here m fun x => hm (hs m x), h.tables⟩

/-- The table of a node. -/
def tab (st : NsState) (n : Nat) : Option (Option NsTable) :=
  match st.here n with
  | none => none
  | some none => some none
  | some (some (.pointer q)) => (st.tables q).map some
  | some (some _) => none

theorem Frame.tab {S : Nat → Prop} {a b : NsState} (h : Frame S a b) (W : Wf a) {m : Nat} (hm : ¬ S m) : b.tab m = a.tab m := by
  unfold NsState.tab
  rw [h.here m hm]
  split
  · rfl
  · rfl
  · next q e => rw [h.tables q (W.bound m q e)]
  · rfl

theorem newTable_spec {st : NsState} (W : Wf st) (n : Nat) : ∃ st', st.newTable n = some (st.next, st') ∧ Frame (· = n) st st' ∧
    st'.here n = some (some (.pointer st.next)) ∧ st'.tables st.next = some ⟨none, none⟩ ∧ st'.next = st.next + 1 := by
  obtain ⟨cs, A⟩ := W.notes
  obtain ⟨a', e, A'⟩ := after_annotate A ⟨n, nsKey, some (.pointer st.next), none, some 1⟩
  simp only at e
  have hh : ∀ m, a'.getHere m nsKey = if m = n then some (some (.pointer st.next)) else st.here m := by
    intro m
    unfold here
    rw [getHere_spec A', getHere_spec A]
    by_cases hm : m = n
    · subst hm; simp [lastOf]
    · have : n ≠ m := fun e => hm e.symm
      simp [lastOf, hm, this]
  refine ⟨⟨a', fun q => if q = st.next then some ⟨none, none⟩ else st.tables q, st.next + 1⟩, ?_, ⟨⟨⟨_, A'⟩, ?_⟩, ?_, ?_, ?_⟩, ?_, ?_, ?_⟩
  · simp [newTable, e]
  · intro m q hq
    simp only [here] at hq
    rw [hh m] at hq
    by_cases hm : m = n
    · rw [if_pos hm] at hq; cases hq; exact Nat.lt_succ_self _
    · rw [if_neg hm] at hq; exact Nat.lt_succ_of_lt (W.bound m q hq)
  · exact Nat.le_succ _
  · intro m hm
    simp only [here] at *
    rw [hh m, if_neg hm]
  · intro q hq
    simp only
    rw [if_neg (by omega)]
  · simp only [here]; rw [hh n, if_pos rfl]
  · simp
  · rfl

theorem here_put (st : NsState) (q : Nat) (t : NsTable) (m : Nat) : (st.put q t).here m = st.here m := rfl

theorem put_self (st : NsState) (q : Nat) (t : NsTable) : (st.put q t).tables q = some t := if_pos rfl

theorem Wf.put {st : NsState} (W : Wf st) (q : Nat) (t : NsTable) : Wf (st.put q t) := ⟨W.notes, W.bound⟩

/-! ### Installing the declarations of a node -/

/-- While the attributes of `n` are read, `ds` those already read. -/
structure Installing (st0 : NsState) (n : Nat) (st : NsState) (found : Bool) (p : Option Nat) (ds : Pairs) : Prop where
  frame : Frame (· = n) st0 st
  found : found = (valueOf ds c!"xmlns").isSome
  empty : p = none → st.here n = some none ∧ ∀ x ∈ ds, isXmlns x.1 = false
  table : ∀ q, p = some q → st.here n = some (some (.pointer q)) ∧ st0.next ≤ q ∧ ∃ t, st.tables q = some t ∧ TableFor t ds

theorem valueOf_append (a b : Pairs) (k : List Char) : valueOf (a ++ b) k = (valueOf a k).or (valueOf b k) := by
  unfold valueOf
  rw [List.find?_append]
  cases a.find? fun x => x.1 == k <;> rfl

theorem valueOf_none {ds : Pairs} {k : List Char} : valueOf ds k = none ↔ ∀ x ∈ ds, x.1 ≠ k := by
  unfold valueOf
  simp [List.find?_eq_none]

theorem past_append_other (ds : Pairs) (x : List Char × List Char) (h : (isXmlns x.1 && x.1.length != 5) = false) : past (ds ++ [x]) = past ds := by
  have : decls [x] = [] := by
    simp only [decls, List.filterMap_cons, h, List.filterMap_nil]
    rfl
  unfold past
  rw [decls_append, this, List.append_nil]

theorem past_append_decl (ds : Pairs) (x : List Char × List Char) (h : (isXmlns x.1 && x.1.length != 5) = true) :
    past (ds ++ [x]) = .insert ⟨x.1.drop 6, none, some x.2, none⟩ :: past ds := by
  have : decls [x] = [(x.1.drop 6, x.2)] := by
    simp only [decls, List.filterMap_cons, h, if_true, List.filterMap_nil]
  unfold past
  rw [decls_append, this]
  simp

/-- The table used after the first declaration. -/
theorem tableFor_spec {st0 st : NsState} {n : Nat} {found : Bool} {p : Option Nat} {ds : Pairs} (I : Installing st0 n st found p ds)
    (hc : Clean ds) : ∃ q st', st.tableFor n p = some (q, st') ∧ Installing st0 n st' found (some q) ds := by
  cases p with
  | some q => exact ⟨q, st, rfl, I⟩
  | none =>
    obtain ⟨st', e, F, h1, h2, h3⟩ := newTable_spec I.frame.wf n
    obtain ⟨g1, g2⟩ := I.empty rfl
    refine ⟨st.next, st', e, ⟨I.frame.trans F, I.found, fun h => (by cases h), ?_⟩⟩
    intro q hq
    cases hq
    have hd : decls ds = [] := by
      cases hx : decls ds with
      | nil => rfl
      | cons y l =>
        obtain ⟨x, hx1, hx2, _⟩ := decls_mem (by rw [hx]; exact List.mem_cons_self .. : y ∈ decls ds)
        rw [g2 x hx1] at hx2; cases hx2
    have hp : past ds = [] := by simp [past, hd]
    refine ⟨h1, I.frame.next, _, h2, ⟨?_, ?_, fun _ => hp⟩⟩
    · symm
      rw [valueOf_none]
      intro x hx e
      have := g2 x hx
      rw [e] at this
      exact absurd this (by decide)
    · rw [hp]; exact hist_newHash

theorem installLoop_spec {a : Attrs} (n : Nat) {st0 : NsState} : ∀ (qs : Pairs) (k : Nat) (c : AttrCursor) (found : Bool) (p : Option Nat) (st : NsState) (ds : Pairs),
    qs.length < k → c.Reads qs → AttrCursor.MovedFrom a c → Clean (ds ++ qs) → ((ds ++ qs).map (·.1)).Nodup → Installing st0 n st found p ds →
    ∃ c' st' found' p', installLoop n k c found p st = some (true, c', st') ∧ AttrCursor.MovedFrom a c' ∧ Installing st0 n st' found' p' (ds ++ qs)
  | [], k, c, found, p, st, ds, hk, hr, hm, _, _, I => by
    obtain ⟨k, rfl⟩ : ∃ j, k = j + 1 := ⟨k - 1, by simp at hk; omega⟩
    cases hr with
    | done h => exact ⟨c, st, found, p, by simp [installLoop, h], hm, by simpa using I⟩
  | (key, v) :: qs, k, c, found, p, st, ds, hk, hr, hm, hc, hd, I => by
    obtain ⟨k, rfl⟩ : ∃ j, k = j + 1 := ⟨k - 1, by simp at hk; omega⟩
    have hk' : qs.length < k := by simp at hk; omega
    cases hr with
    | item h1 h2 h3 h4 h5 hr =>
      rename_i c1
      have e0 : ds ++ (key, v) :: qs = (ds ++ [(key, v)]) ++ qs := by simp
      rw [e0] at hc hd ⊢
      have hm1 := hm.next h5
      have hcd : Clean (ds ++ [(key, v)]) := fun x hx => hc x (List.mem_append_left _ hx)
      have hc0 : Clean ds := fun x hx => hcd x (List.mem_append_left _ hx)
      have hdd : ((ds ++ [(key, v)]).map (·.1)).Nodup := by
        rw [List.map_append] at hd; exact (List.nodup_append.1 hd).1
      have hd0 : (ds.map (·.1)).Nodup := by
        rw [List.map_append] at hdd; exact (List.nodup_append.1 hdd).1
      have hkey : ∀ x ∈ ds, x.1 ≠ key := by
        rw [List.map_append] at hdd
        intro x hx e
        exact (List.nodup_append.1 hdd).2.2 _ (List.mem_map.2 ⟨x, hx, rfl⟩) key (by simp) e
      simp only [installLoop, h1, h2, h3, h5]
      by_cases hx : isXmlns key = true
      · simp only [hx, Bool.not_true, Bool.false_eq_true, if_false]
        have hD : IsDeclaration key := hcd (key, v) (by simp) hx
        obtain ⟨q, st1, e1, I1⟩ := tableFor_spec I hc0
        obtain ⟨t1, t2, t, t3, t4⟩ := I1.table q rfl
        simp only [e1]
        have hput : ∀ t', Frame (· = n) st0 (st1.put q t') := fun t' =>
          ⟨I1.frame.wf.put q t', I1.frame.next, I1.frame.here, fun r hr => by
            have : r ≠ q := by omega
            simp only [put, this, if_false]
            exact I1.frame.tables r hr⟩
        by_cases h5' : key.length = 5
        · have hk5 : key = c!"xmlns" := (decl_length hD).1 h5'
          have hv0 : valueOf ds c!"xmlns" = none := by rw [valueOf_none, ← hk5]; exact hkey
          have hf : found = false := by rw [I.found, hv0]; rfl
          simp only [h5', if_true, hf, Bool.false_eq_true, if_false, setDefault, t3]
          refine installLoop_spec n qs k c1 true (some q) _ (ds ++ [(key, v)]) hk' hr hm1 hc hd ⟨hput _, ?_, fun h => (by cases h), ?_⟩
          · rw [valueOf_append, hv0, hk5]; rfl
          · intro q' hq'
            cases hq'
            refine ⟨t1, t2, _, put_self .., ⟨?_, ?_, ?_⟩⟩
            · rw [valueOf_append, hv0, hk5]; rfl
            · rw [past_append_other ds _ (by simp [h5'])]; exact t4.hist
            · rw [past_append_other ds _ (by simp [h5'])]; exact t4.none
        · have hne : key ≠ c!"xmlns" := fun e => h5' ((decl_length hD).2 e)
          have hkd := decl_drop hD hne
          have hp := present_decls hc0 hd0 (key.drop 6)
          rw [← hkd, valueOf_none.2 hkey] at hp
          have hex := hist_exists t4.hist (key.drop 6)
          rw [hp.2] at hex
          obtain ⟨h', e', H'⟩ := hist_insert t4.hist ⟨key.drop 6, none, some v, none⟩
          have hex' : (t.table.getD newHash).exists (key.drop 6) = some false := hex
          simp only at e'
          simp only [h5', if_false, declare, t3, hex', e']
          have hb : (isXmlns key && key.length != 5) = true := by simp [hx, h5']
          refine installLoop_spec n qs k c1 found (some q) _ (ds ++ [(key, v)]) hk' hr hm1 hc hd ⟨hput _, ?_, fun h => (by cases h), ?_⟩
          · rw [valueOf_append, I.found]
            have : valueOf [(key, v)] c!"xmlns" = none := valueOf_none.2 (by simpa using hne)
            rw [this]; cases valueOf ds c!"xmlns" <;> rfl
          · intro q' hq'
            cases hq'
            refine ⟨t1, t2, _, put_self .., ⟨?_, ?_, fun h => (by cases h)⟩⟩
            · have : valueOf [(key, v)] c!"xmlns" = none := valueOf_none.2 (by simpa using hne)
              rw [valueOf_append, this, Option.or_none]; exact t4.dflt
            · rw [past_append_decl ds _ hb]; exact H'
      · have hx' : isXmlns key = false := by simpa using hx
        simp only [hx', Bool.not_false, if_true]
        have hv : valueOf [(key, v)] c!"xmlns" = none := by
          rw [valueOf_none]
          intro x hx1 e
          simp only [List.mem_singleton] at hx1
          subst hx1
          rw [show key = c!"xmlns" from e] at hx'
          exact absurd hx' (by decide)
        refine installLoop_spec n qs k c1 found p st (ds ++ [(key, v)]) hk' hr hm1 hc hd ⟨I.frame, ?_, ?_, ?_⟩
        · rw [valueOf_append, hv, Option.or_none]; exact I.found
        · intro h
          obtain ⟨g1, g2⟩ := I.empty h
          refine ⟨g1, fun x hx1 => ?_⟩
          rcases List.mem_append.1 hx1 with h1 | h1
          · exact g2 x h1
          · simp only [List.mem_singleton] at h1; subst h1; exact hx'
        · intro q hq
          obtain ⟨g1, g2, t, g3, g4⟩ := I.table q hq
          refine ⟨g1, g2, t, g3, ⟨?_, ?_, ?_⟩⟩
          · rw [valueOf_append, hv, Option.or_none]; exact g4.dflt
          · rw [past_append_other ds _ (by simp [hx'])]; exact g4.hist
          · rw [past_append_other ds _ (by simp [hx'])]; exact g4.none

/-! ### What a node sees -/

/-- The table of the node says what its attributes declare. -/
structure Sees (st : NsState) (n : Nat) (ps : Pairs) : Prop where
  ex : ∃ t, st.tab n = some t ∧ (∀ pre, has t pre = some (valueOf ps (c!"xmlns:" ++ pre)).isSome) ∧
    (∀ pre v, valueOf ps (c!"xmlns:" ++ pre) = some v → ∃ hash, t.bind (·.table) = some hash ∧ hash.get pre = some (some v)) ∧
    t.bind (·.defaultNs) = valueOf ps c!"xmlns"

theorem Frame.sees {S : Nat → Prop} {a b : NsState} (h : Frame S a b) (W : Wf a) {m : Nat} (hm : ¬ S m) {ps : Pairs} (hs : Sees a m ps) :
    Sees b m ps := by
  obtain ⟨t, e, r⟩ := hs.ex
  exact ⟨t, (h.tab W hm).trans e, r⟩

theorem sees_empty {st : NsState} {n : Nat} {ps : Pairs} (hn : st.here n = some none) (hx : ∀ x ∈ ps, isXmlns x.1 = false) : Sees st n ps := by
  have h1 : ∀ pre, valueOf ps (c!"xmlns:" ++ pre) = none := by
    intro pre
    rw [valueOf_none]
    intro x hm e
    have := hx x hm
    rw [e] at this
    have h2 : isXmlns (c!"xmlns:" ++ pre) = true := decl_isXmlns (Or.inr ⟨pre, rfl⟩)
    rw [h2] at this; cases this
  refine ⟨none, by simp [tab, hn], fun pre => ?_, fun pre v hv => ?_, ?_⟩
  · rw [h1]; rfl
  · rw [h1] at hv; cases hv
  · symm
    rw [Option.bind_none, valueOf_none]
    intro x hm e
    have := hx x hm
    rw [e] at this
    exact absurd this (by decide)

theorem sees_installed {st0 st : NsState} {n : Nat} {found : Bool} {p : Option Nat} {ds : Pairs} (I : Installing st0 n st found p ds)
    (hc : Clean ds) (hd : (ds.map (·.1)).Nodup) : Sees st n ds := by
  cases p with
  | none => exact sees_empty (I.empty rfl).1 (I.empty rfl).2
  | some q =>
    obtain ⟨h1, _, t, h2, h3⟩ := I.table q rfl
    refine ⟨some t, by simp [tab, h1, h2], fun pre => ?_, fun pre v hv => ?_, ?_⟩
    · have hp := present_decls hc hd pre
      rw [← hp.2]
      unfold has
      cases ht : t.table with
      | none => simp only [ht]; simp [h3.none ht, present]
      | some hash =>
        have := hist_exists h3.hist pre
        rw [ht] at this
        simp only [ht]
        exact this
    · have hp := present_decls hc hd pre
      rw [hv] at hp
      have hg := hist_get h3.hist pre
      rw [hp.1] at hg
      cases ht : t.table with
      | none => rw [h3.none ht] at hp; simp [present] at hp
      | some hash =>
        rw [ht] at hg
        exact ⟨hash, ht, hg⟩
    · exact h3.dflt

theorem valueOf_perm {ps qs : Pairs} (hp : qs.Perm ps) (hd : (ps.map (·.1)).Nodup) (k : List Char) : valueOf qs k = valueOf ps k := by
  unfold valueOf
  rw [Attrs.find?_key_perm k hp.symm hd]

theorem Sees.perm {st : NsState} {n : Nat} {ps qs : Pairs} (hs : Sees st n qs) (hp : qs.Perm ps) (hd : (ps.map (·.1)).Nodup) : Sees st n ps := by
  obtain ⟨t, h1, h2, h3, h4⟩ := hs.ex
  refine ⟨t, h1, fun pre => ?_, fun pre v hv => ?_, ?_⟩
  · rw [← valueOf_perm hp hd]; exact h2 pre
  · rw [← valueOf_perm hp hd] at hv; exact h3 pre v hv
  · rw [← valueOf_perm hp hd]; exact h4

/-! ### From a node to the root -/

variable {h : Heap} {f : Forest} {ns : Nat → List (Nat × Info)}

theorem tableOf_eq (R : Heap.Rep h f ns) (st : NsState) {n : Nat} (hn : f.live n = true) : st.tableOf h n = st.tab n := by
  obtain ⟨hd, hx⟩ := R.nodes n hn
  unfold tableOf tab Notes.get here
  rw [hx]
  simp only
  cases st.notes.getHere n nsKey with
  | none => rfl
  | some r => cases r <;> rfl

theorem declared_spec (R : Heap.Rep h f ns) {st : NsState} {attrs : Nat → Pairs} (pre : List Char) :
    ∀ (path : List Nat) (n : Nat) (fuel : Nat), path.length < fuel → f.live n = true → Ancestors f n path →
    h.getParent ((n :: path).getLast (by simp)) = some none → (∀ m ∈ n :: path, Sees st m (attrs m)) →
    declared h st pre fuel n = some (space attrs (n :: path) (some pre)).isSome := by
  intro path
  induction path with
  | nil =>
    intro n fuel hl hn _ ht hs
    obtain ⟨k, rfl⟩ : ∃ j, fuel = j + 1 := ⟨fuel - 1, by simp at hl; omega⟩
    obtain ⟨t, h1, h2, _, _⟩ := (hs n (by simp)).ex
    have ht' : h.getParent n = some none := by simpa using ht
    simp only [declared, tableOf_eq R st hn, h1, h2 pre, ht', space, List.findSome?_cons, declares]
    cases valueOf (attrs n) (c!"xmlns:" ++ pre) <;> rfl
  | cons p path ih =>
    intro n fuel hl hn hA ht hs
    obtain ⟨k, rfl⟩ : ∃ j, fuel = j + 1 := ⟨fuel - 1, by simp at hl; omega⟩
    cases hA with
    | up g1 g2 hA =>
      obtain ⟨t, h1, h2, _, _⟩ := (hs n (by simp)).ex
      have hpar := (R.shows g1).parents n g2
      have := ih p k (by simpa using hl) g1 hA (by simpa using ht) (fun m hm => hs m (List.mem_cons_of_mem _ hm))
      simp only [declared, tableOf_eq R st hn, h1, h2 pre, hpar, this, space, List.findSome?_cons, declares]
      cases valueOf (attrs n) (c!"xmlns:" ++ pre) <;> rfl

theorem nodeCheck_spec (R : Heap.Rep h f ns) {st : NsState} {attrs : Nat → Pairs} (pre nm : List Char) :
    ∀ (path : List Nat) (n : Nat) (fuel : Nat), path.length < fuel → f.live n = true → Ancestors f n path →
    h.getParent ((n :: path).getLast (by simp)) = some none → (∀ m ∈ n :: path, Sees st m (attrs m)) →
    nodeCheck h st pre nm fuel (some n) = some (space attrs (n :: path) (some pre) == some nm) := by
  intro path
  induction path with
  | nil =>
    intro n fuel hl hn _ ht hs
    obtain ⟨k, rfl⟩ : ∃ j, fuel = j + 1 := ⟨fuel - 1, by simp at hl; omega⟩
    obtain ⟨t, h1, h2, h3, _⟩ := (hs n (by simp)).ex
    have ht' : h.getParent n = some none := by simpa using ht
    simp only [nodeCheck, tableOf_eq R st hn, h1, h2 pre, ht', space, List.findSome?_cons, declares]
    cases hv : valueOf (attrs n) (c!"xmlns:" ++ pre) with
    | none => cases k <;> rfl
    | some v =>
      obtain ⟨hash, g1, g2⟩ := h3 pre v hv
      simp only [Option.isSome_some, g1, g2, Option.map_some, Attrs.cmp_beq]
      rfl
  | cons p path ih =>
    intro n fuel hl hn hA ht hs
    obtain ⟨k, rfl⟩ : ∃ j, fuel = j + 1 := ⟨fuel - 1, by simp at hl; omega⟩
    cases hA with
    | up g1 g2 hA =>
      obtain ⟨t, h1, h2, h3, _⟩ := (hs n (by simp)).ex
      have hpar := (R.shows g1).parents n g2
      have := ih p k (by simpa using hl) g1 hA (by simpa using ht) (fun m hm => hs m (List.mem_cons_of_mem _ hm))
      simp only [nodeCheck, tableOf_eq R st hn, h1, h2 pre, hpar, this, space, List.findSome?_cons, declares]
      cases hv : valueOf (attrs n) (c!"xmlns:" ++ pre) with
      | none => rfl
      | some v =>
        obtain ⟨hash, g1, g2⟩ := h3 pre v hv
        simp only [Option.isSome_some, g1, g2, Option.map_some, Attrs.cmp_beq]
        rfl

theorem checkDefault_spec (R : Heap.Rep h f ns) {st : NsState} {attrs : Nat → Pairs} (nm : List Char) :
    ∀ (path : List Nat) (n : Nat) (fuel : Nat), path.length < fuel → f.live n = true → Ancestors f n path →
    h.getParent ((n :: path).getLast (by simp)) = some none → (∀ m ∈ n :: path, Sees st m (attrs m)) →
    checkDefault h st nm fuel (some n) = some (space attrs (n :: path) none == some nm) := by
  intro path
  induction path with
  | nil =>
    intro n fuel hl hn _ ht hs
    obtain ⟨k, rfl⟩ : ∃ j, fuel = j + 1 := ⟨fuel - 1, by simp at hl; omega⟩
    obtain ⟨t, h1, _, _, h4⟩ := (hs n (by simp)).ex
    have ht' : h.getParent n = some none := by simpa using ht
    simp only [checkDefault, tableOf_eq R st hn, h1, h4, ht', space, List.findSome?_cons, declares]
    cases hv : valueOf (attrs n) c!"xmlns" with
    | none => cases k <;> rfl
    | some v =>
      simp only [Attrs.cmp_beq]
      rfl
  | cons p path ih =>
    intro n fuel hl hn hA ht hs
    obtain ⟨k, rfl⟩ : ∃ j, fuel = j + 1 := ⟨fuel - 1, by simp at hl; omega⟩
    cases hA with
    | up g1 g2 hA =>
      obtain ⟨t, h1, _, _, h4⟩ := (hs n (by simp)).ex
      have hpar := (R.shows g1).parents n g2
      have := ih p k (by simpa using hl) g1 hA (by simpa using ht) (fun m hm => hs m (List.mem_cons_of_mem _ hm))
      simp only [checkDefault, tableOf_eq R st hn, h1, h4, hpar, this, space, List.findSome?_cons, declares]
      cases hv : valueOf (attrs n) c!"xmlns" with
      | none => rfl
      | some v =>
        simp only [Attrs.cmp_beq]
        rfl

/-! ### Validation -/

theorem ancestors_unique (hs : Single f) {n : Nat} {ps qs : List Nat} (h1 : Ancestors f n ps) (h2 : Ancestors f n qs) : ps = qs := by
  induction h1 generalizing qs with
  | top h =>
    cases h2 with
    | top _ => rfl
    | up g1 g2 _ => exact (h _ g1 g2).elim
  | up g1 g2 _ ih =>
    cases h2 with
    | top h => exact (h _ g1 g2).elim
    | up k1 k2 h2 =>
      cases hs _ _ _ ⟨g1, g2⟩ ⟨k1, k2⟩
      rw [ih h2]

/-- A node with its ancestors, up to a root. -/
structure UpTo (h : Heap) (f : Forest) (n : Nat) (path : List Nat) : Prop where
  live : f.live n = true
  anc  : Ancestors f n path
  top  : h.getParent ((n :: path).getLast (by simp)) = some none

theorem UpTo.down {n c : Nat} {path : List Nat} (T : Tame f) (U : UpTo h f n path) (e : Edge f n c) : UpTo h f c (n :: path) :=
  ⟨T.closed n c e, .up e.1 e.2 U.anc, by simpa using U.top⟩

theorem UpTo.fuel {n : Nat} {path : List Nat} (R : Heap.Rep h f ns) (T : Tame f) (U : UpTo h f n path) : path.length < h.nextNode + 1 := by
  apply Nat.lt_succ_of_le
  rw [R.next]
  exact nodup_bounded_length (ancestors_nodup T U.anc) fun x hx => by
    rcases ancestors_reach U.anc x hx with h | h
    · exact T.bound x h.1
    · exact (h T).elim

theorem UpTo.notMem {n : Nat} {path : List Nat} (T : Tame f) (U : UpTo h f n path) : n ∉ path := by
  intro hx
  rcases ancestors_reach U.anc n hx with h | h
  · exact h.2.2 rfl
  · exact h T

theorem UpTo.reach {n m : Nat} {path : List Nat} (T : Tame f) (U : UpTo h f n path) (hm : m ∈ path) : ¬ Reach f n m := by
  intro hr
  rcases ancestors_reach U.anc m hm with h | h
  · rcases h.2.1.cases_head with e | ⟨b, e, r⟩
    · exact h.2.2 e
    · exact T.no_cycle e (r.trans hr)
  · exact h T

theorem nameFine_spec (R : Heap.Rep h f ns) (T : Tame f) {st : NsState} {attrs : Nat → Pairs} {n : Nat} {path : List Nat} (U : UpTo h f n path)
    (hs : ∀ m ∈ n :: path, Sees st m (attrs m)) (name : List Char) :
    ∃ b, nameFine h st n name = some b ∧ (b = true ↔ Bound attrs (n :: path) name) := by
  unfold nameFine Bound prefixOf
  rw [colonFrom_spec]
  by_cases hc : ':' ∈ name
  · rw [if_pos hc, if_pos hc]
    simp only [Nat.zero_add, take_takeWhile]
    refine ⟨_, declared_spec R _ path n _ (U.fuel R T) U.live U.anc U.top hs, ?_⟩
    rw [Option.isSome_iff_exists]
    simp
  · rw [if_neg hc, if_neg hc]
    exact ⟨true, rfl, by simp⟩

theorem attrsFine_spec (R : Heap.Rep h f ns) (T : Tame f) {st : NsState} {attrs : Nat → Pairs} {n : Nat} {path : List Nat} (U : UpTo h f n path)
    (hs : ∀ m ∈ n :: path, Sees st m (attrs m)) : ∀ (qs : Pairs) (k : Nat) (c : AttrCursor), qs.length < k → c.Reads qs → Clean qs →
    ∃ b, attrsFine h st n k c = some b ∧ (b = true ↔ ∀ x ∈ qs, ¬ IsDeclaration x.1 → Bound attrs (n :: path) x.1)
  | [], k, c, hk, hr, _ => by
    obtain ⟨k, rfl⟩ : ∃ j, k = j + 1 := ⟨k - 1, by simp at hk; omega⟩
    cases hr with
    | done h => exact ⟨true, by simp [attrsFine, h], by simp⟩
  | (key, v) :: qs, k, c, hk, hr, hc => by
    obtain ⟨k, rfl⟩ : ∃ j, k = j + 1 := ⟨k - 1, by simp at hk; omega⟩
    cases hr with
    | item h1 h2 h3 h4 h5 hr =>
      rename_i c1
      obtain ⟨b, e, hb⟩ := attrsFine_spec R T U hs qs k c1 (by simp at hk; omega) hr (fun x hx => hc x (List.mem_cons_of_mem _ hx))
      simp only [attrsFine, h1, h2, h5]
      by_cases hx : isXmlns key = true
      · refine ⟨b, by simp [hx, e], hb.trans ?_⟩
        have := hc (key, v) (List.mem_cons_self ..) hx
        simp only [List.mem_cons, forall_eq_or_imp]
        exact ⟨fun h => ⟨fun g => (g this).elim, h⟩, fun h => h.2⟩
      · obtain ⟨b1, e1, hb1⟩ := nameFine_spec R T U hs key
        have hx' : isXmlns key = false := by simpa using hx
        have hnd : ¬ IsDeclaration key := fun g => hx (decl_isXmlns g)
        simp only [hx', Bool.false_eq_true, if_false, e1, List.mem_cons, forall_eq_or_imp]
        cases b1 with
        | false => exact ⟨false, rfl, ⟨fun h => (by cases h), fun h => hb1.2 (h.1 hnd)⟩⟩
        | true => exact ⟨b, e, hb.trans ⟨fun h => ⟨fun _ => hb1.1 rfl, h⟩, fun h => h.2⟩⟩

theorem num_eq {a : Attrs} {ps : Pairs} (hr : Attrs.Rep a ps) : a.num = ps.length := by
  obtain ⟨_, hr⟩ := hr
  obtain ⟨num, ptr⟩ := a
  cases ptr with
  | list l => exact hr.1.trans (by simpa using hr.2.2.length_eq)
  | hash h => exact hr.2.1.trans hr.1.items

/-- What is known about the attributes of the nodes. -/
structure Given (f : Forest) (as : Nat → Attrs) (ps : Nat → Pairs) : Prop where
  rep   : ∀ n, f.live n = true → Attrs.Rep (as n) (ps n)
  clean : ∀ n, f.live n = true → Clean (ps n)

theorem validateOne_spec (R : Heap.Rep h f ns) (T : Tame f) {as : Nat → Attrs} {ps : Nat → Pairs} (G : Given f as ps) {st : NsState} (W : Wf st)
    {n : Nat} {path : List Nat} (U : UpTo h f n path) (hs : ∀ m ∈ path, Sees st m (ps m)) (h0 : st.here n = some none) :
    ∃ b st', validateOne as h st n = some (b, st') ∧ Frame (· = n) st st' ∧ Sees st' n (ps n) ∧
      (b = true ↔ NodeBound f ps (n :: path) n) := by
  have hrep := G.rep n U.live
  have hcl := G.clean n U.live
  obtain ⟨hd, hnode⟩ := R.nodes n U.live
  have hnum := (Attrs.rep_num hrep)
  unfold validateOne
  simp only [hnode]
  cases hA : (as n).hasAttributes with
  | false =>
    have hnil : ps n = [] := by
      rw [hA] at hnum
      have := hnum.2
      simpa using this
    have hsn : Sees st n (ps n) := sees_empty h0 (by simp [hnil])
    obtain ⟨b, e, hb⟩ := nameFine_spec R T U (attrs := ps) (st := st) (by
      intro m hm
      rcases List.mem_cons.1 hm with rfl | hm
      · exact hsn
      · exact hs m hm) (f.name n)
    refine ⟨b, st, ?_, .refl W, hsn, ?_⟩
    · simp [e]
    · rw [hb, NodeBound, hnil]; simp
  | true =>
    obtain ⟨qs, hp, ⟨c, ec, hc⟩, hfirst, _⟩ := AttrCursor.rep_cursor hrep
    have hlen : qs.length = (as n).num := by
      rw [hp.length_eq]
      exact (num_eq hrep).symm
    have hnd : (qs.map (·.1)).Nodup := ((hp.map _).nodup_iff).2 hrep.1
    have hcq : Clean qs := fun x hx => hcl x (hp.mem_iff.1 hx)
    obtain ⟨c', st', found', p', e1, hm, I⟩ := installLoop_spec (a := as n) n (st0 := st) qs ((as n).num + 1) c false none st []
      (by omega) hc (.new ec) (by simpa using hcq) (by simpa using hnd)
      ⟨.refl W, rfl, fun _ => ⟨h0, by simp⟩, fun q h => (by cases h)⟩
    rw [List.nil_append] at I
    have hsn : Sees st' n (ps n) := (sees_installed I hcq hnd).perm hp hrep.1
    have hall : ∀ m ∈ n :: path, Sees st' m (ps m) := by
      intro m hm
      rcases List.mem_cons.1 hm with rfl | hm
      · exact hsn
      · exact I.frame.sees W (fun e => U.notMem T (e ▸ hm)) (hs m hm)
    obtain ⟨b, e2, hb⟩ := nameFine_spec R T U hall (f.name n)
    obtain ⟨c1, e3, hc1⟩ := hfirst c' hm
    obtain ⟨b', e4, hb'⟩ := attrsFine_spec R T U hall qs ((as n).num + 1) c1 (by omega) hc1 hcq
    have hmem : (∀ x ∈ qs, ¬ IsDeclaration x.1 → Bound ps (n :: path) x.1) ↔ ∀ x ∈ ps n, ¬ IsDeclaration x.1 → Bound ps (n :: path) x.1 :=
      ⟨fun g x hx => g x (hp.mem_iff.2 hx), fun g x hx => g x (hp.mem_iff.1 hx)⟩
    simp only [if_true, ec, e1, e2]
    cases b with
    | false =>
      refine ⟨false, st', rfl, I.frame, hsn, ?_⟩
      exact ⟨fun g => (by cases g), fun g => hb.2 g.1⟩
    | true =>
      refine ⟨b', st', by simp [e3, e4], I.frame, hsn, ?_⟩
      rw [hb', hmem]
      exact ⟨fun g => ⟨hb.1 rfl, g⟩, fun g => g.2⟩

/-- All the nodes from `n` down are bound. -/
def AllBound (f : Forest) (ps : Nat → Pairs) (n : Nat) : Prop :=
  ∀ m mp, Reach f n m → Ancestors f m mp → NodeBound f ps (m :: mp) m

/-- What validation of a node and what is below it does. -/
def Validates (f : Forest) (ps : Nat → Pairs) (S : Nat → Prop) (P : Prop) (st : NsState) (r : Option (Bool × NsState)) : Prop :=
  ∃ b st', r = some (b, st') ∧ Frame S st st' ∧ (b = true → ∀ m, S m → Sees st' m (ps m)) ∧ (b = true ↔ P)

theorem childLoop_spec (R : Heap.Rep h f ns) (T : Tame f) {ps : Nat → Pairs} {n : Nat} {path : List Nat} (U : UpTo h f n path)
    (v : NsState → Nat → Option (Bool × NsState))
    (hv : ∀ c st, Edge f n c → Wf st → (∀ m ∈ n :: path, Sees st m (ps m)) → (∀ m, Reach f c m → st.here m = some none) →
      Validates f ps (Reach f c) (AllBound f ps c) st (v st c)) :
    ∀ (ys xs : List Nat) (k : Nat) (st : NsState), nodesOf (f.kids n) = xs ++ ys → ys.length ≤ k → Wf st →
    (∀ m ∈ n :: path, Sees st m (ps m)) → (∀ y ∈ ys, ∀ m, Reach f y m → st.here m = some none) →
    Validates f ps (fun m => ∃ y ∈ ys, Reach f y m) (∀ y ∈ ys, AllBound f ps y) st (childLoop v h k st ys.head?)
  | [], xs, k, st, _, _, W, _, _ => ⟨true, st, by cases k <;> rfl, .refl W, fun _ m hm => (by simp at hm), by simp⟩
  | y :: ys, xs, k, st, hk, hl, W, hs, h0 => by
    obtain ⟨k, rfl⟩ : ∃ j, k = j + 1 := ⟨k - 1, by simp at hl; omega⟩
    have edge : ∀ z ∈ y :: ys, Edge f n z := fun z hz => ⟨U.live, mem_nodesOf.mp (by rw [hk]; exact List.mem_append_right _ hz)⟩
    have ey := edge y (List.mem_cons_self ..)
    have hnd := R.nodup_kids U.live
    rw [hk] at hnd
    have hyy : y ∉ ys := (List.nodup_cons.1 (List.nodup_append.1 hnd).2.1).1
    obtain ⟨b, st1, e1, F1, s1, hb⟩ := hv y st ey W hs (h0 y (List.mem_cons_self ..))
    have hF1 : Frame (fun m => ∃ z ∈ y :: ys, Reach f z m) st st1 := F1.mono fun m hm => ⟨y, List.mem_cons_self .., hm⟩
    cases b with
    | false =>
      refine ⟨false, st1, by simp [childLoop, e1], hF1, fun g => (by cases g), ?_⟩
      exact ⟨fun g => (by cases g), fun g => hb.2 (g y (List.mem_cons_self ..))⟩
    | true =>
      have hpath : ∀ m ∈ n :: path, ¬ Reach f y m := fun m hm => (U.down T ey).reach T hm
      have hother : ∀ z ∈ ys, ∀ m, Reach f z m → ¬ Reach f y m := fun z hz m hr hr' =>
        siblings_apart T R.single (edge z (List.mem_cons_of_mem _ hz)) ey (fun e => hyy (e ▸ hz)) hr hr'
      obtain ⟨b2, st2, e2, F2, s2, hb2⟩ := childLoop_spec R T U v hv ys (xs ++ [y]) k st1 (by simpa using hk) (by simpa using hl) F1.wf
        (fun m hm => F1.sees W (hpath m hm) (hs m hm))
        (fun z hz m hm => (F1.here m (hother z hz m hm)).trans (h0 z (List.mem_cons_of_mem _ hz) m hm))
      refine ⟨b2, st2, ?_, hF1.trans (F2.mono fun m ⟨z, hz, hm⟩ => ⟨z, List.mem_cons_of_mem _ hz, hm⟩), ?_, ?_⟩
      · simp only [List.head?_cons, childLoop, e1, R.getNext U.live hk]
        exact e2
      · rintro g m ⟨z, hz, hm⟩
        rcases List.mem_cons.1 hz with rfl | hz
        · exact F2.sees F1.wf (fun ⟨w, hw, hr⟩ => hother w hw m hr hm) (s1 rfl m hm)
        · exact s2 g m ⟨z, hz, hm⟩
      · rw [hb2]
        simp only [List.mem_cons, forall_eq_or_imp]
        exact ⟨fun g => ⟨hb.1 rfl, g⟩, fun g => g.2⟩

theorem validateDepth_spec (R : Heap.Rep h f ns) (T : Tame f) {as : Nat → Attrs} {ps : Nat → Pairs} (G : Given f as ps) :
    ∀ (d n : Nat) (path : List Nat) (st : NsState), Depth f d n → UpTo h f n path → Wf st → (∀ m ∈ path, Sees st m (ps m)) →
    (∀ m, Reach f n m → st.here m = some none) →
    Validates f ps (Reach f n) (AllBound f ps n) st (validateDepth as h d st n)
  | 0, n, path, st, hd, _, _, _, _ => hd.elim
  | d + 1, n, path, st, hd, U, W, hs, h0 => by
    obtain ⟨b, st1, e1, F1, s1, hb⟩ := validateOne_spec R T G W U hs (h0 n .refl)
    have hF1 : Frame (Reach f n) st st1 := F1.mono fun m hm => hm ▸ .refl
    unfold validateDepth
    rw [e1]
    cases b with
    | false =>
      refine ⟨false, st1, rfl, hF1, fun g => (by cases g), ⟨fun g => (by cases g), fun g => hb.2 (g n path .refl U.anc)⟩⟩
    | true =>
      have hall : ∀ m ∈ n :: path, Sees st1 m (ps m) := by
        intro m hm
        rcases List.mem_cons.1 hm with rfl | hm
        · exact s1
        · exact F1.sees W (fun e => U.notMem T (e ▸ hm)) (hs m hm)
      obtain ⟨b2, st2, e2, F2, s2, hb2⟩ := childLoop_spec R T U (validateDepth as h d)
        (fun c st ec W hs h0 => validateDepth_spec R T G d c (n :: path) st (hd c ec) (U.down T ec) W hs h0)
        (nodesOf (f.kids n)) [] h.nextNode st1 rfl (R.length_nodes T U.live) F1.wf hall (by
          intro y hy m hm
          have ey : Edge f n y := ⟨U.live, mem_nodesOf.mp hy⟩
          rw [F1.here m (fun e => T.no_cycle ey (e ▸ hm)), h0 m (.head ey hm)])
      have hsub : ∀ m, Reach f n m → m = n ∨ ∃ y ∈ nodesOf (f.kids n), Reach f y m := by
        intro m hm
        rcases hm.cases_head with e | ⟨y, ey, hr⟩
        · exact Or.inl e.symm
        · exact Or.inr ⟨y, mem_nodesOf.mpr ey.2, hr⟩
      refine ⟨b2, st2, ?_, hF1.trans (F2.mono fun m ⟨y, hy, hm⟩ => .head ⟨U.live, mem_nodesOf.mp hy⟩ hm), ?_, ?_⟩
      · simp only [R.getFirstChild U.live]
        exact e2
      · intro g m hm
        rcases hsub m hm with rfl | hm
        · exact F2.sees F1.wf (fun ⟨y, hy, hr⟩ => T.no_cycle ⟨U.live, mem_nodesOf.mp hy⟩ hr) s1
        · exact s2 g m hm
      · rw [hb2]
        constructor
        · intro g m mp hm hA
          rcases hsub m hm with rfl | ⟨y, hy, hm⟩
          · rw [ancestors_unique R.single hA U.anc]; exact hb.1 rfl
          · exact g y hy m mp hm hA
        · intro g y hy m mp hm hA
          exact g m mp (.head ⟨U.live, mem_nodesOf.mp hy⟩ hm) hA

/-! ### The names of the nodes -/

theorem nodeCmp_spec (R : Heap.Rep h f ns) (T : Tame f) {st : NsState} {attrs : Nat → Pairs} {n : Nat} {path : List Nat} (U : UpTo h f n path)
    (hs : ∀ m ∈ n :: path, Sees st m (attrs m)) (nm name : List Char) :
    nodeCmp h st n nm name = some (isCalled f attrs (n :: path) n nm name) := by
  obtain ⟨hd, hnode⟩ := R.nodes n U.live
  unfold nodeCmp isCalled localName prefixOf
  rw [hnode]
  simp only [colonFrom_spec]
  by_cases hc : ':' ∈ f.name n
  · simp only [hc, if_true, Nat.zero_add, take_takeWhile, drop_takeWhile,
      nodeCheck_spec R (attrs := attrs) _ nm path n _ (U.fuel R T) U.live U.anc U.top hs]
    cases hb : space attrs (n :: path) (some (List.takeWhile (fun c => c != ':') (f.name n))) == some nm with
    | false => simp
    | true => simp [Attrs.cmp_beq, eq_comm, Bool.beq_comm]
  · simp only [hc, if_false,
      checkDefault_spec R (attrs := attrs) nm path n _ (U.fuel R T) U.live U.anc U.top hs]
    cases hb : space attrs (n :: path) none == some nm with
    | false => simp
    | true => simp [Attrs.cmp_beq, eq_comm, Bool.beq_comm]

/-! ### Looking for nodes -/

/-- `test` says which of the children of `n` are called so. -/
structure Asks (h : Heap) (st : NsState) (nm name : List Char) (l : List Nat) (test : Nat → Bool) : Prop where
  cmp : ∀ c ∈ l, nodeCmp h st c nm name = some (test c)

theorem nextLoop_spec (R : Heap.Rep h f ns) {st : NsState} {nm name : List Char} {n : Nat} (hn : f.live n = true) {test : Nat → Bool}
    (hc : Asks h st nm name (nodesOf (f.kids n)) test) : ∀ (ys xs : List Nat) (k : Nat), nodesOf (f.kids n) = xs ++ ys → ys.length ≤ k →
    nextLoop h st nm name k ys.head? = some (ys.find? test)
  | [], xs, k, _, _ => by cases k <;> rfl
  | y :: ys, xs, k, hk, hl => by
    obtain ⟨k, rfl⟩ : ∃ j, k = j + 1 := ⟨k - 1, by simp at hl; omega⟩
    simp only [List.head?_cons, nextLoop, hc.cmp y (by rw [hk]; simp), R.getNext hn hk, List.find?_cons]
    cases test y with
    | true => rfl
    | false => exact nextLoop_spec R hn hc ys (xs ++ [y]) k (by simpa using hk) (by simpa using hl)

theorem getChildCalled_spec (R : Heap.Rep h f ns) (T : Tame f) {st : NsState} {nm name : List Char} {n : Nat} (hn : f.live n = true) {test : Nat → Bool}
    (hc : Asks h st nm name (nodesOf (f.kids n)) test) : getChildCalled h st n nm name = some ((nodesOf (f.kids n)).find? test) := by
  simp only [NsState.getChildCalled, R.getFirstChild hn]
  exact nextLoop_spec R hn hc _ [] _ rfl (R.length_nodes T hn)

theorem getNextCalled_spec (R : Heap.Rep h f ns) (T : Tame f) {st : NsState} {nm name : List Char} {n m : Nat} (hn : f.live n = true) {test : Nat → Bool}
    (hc : Asks h st nm name (nodesOf (f.kids n)) test) {xs ys : List Nat} (hk : nodesOf (f.kids n) = xs ++ m :: ys) :
    getNextCalled h st m nm name = some (ys.find? test) := by
  have hlen := R.length_nodes T hn
  rw [hk] at hlen
  simp only [NsState.getNextCalled, R.getNext hn hk]
  exact nextLoop_spec R hn hc ys (xs ++ [m]) _ (by simpa using hk) (by simp at hlen; omega)

theorem previousLoop_spec (R : Heap.Rep h f ns) {st : NsState} {nm name : List Char} {n : Nat} (hn : f.live n = true) {test : Nat → Bool}
    (hc : Asks h st nm name (nodesOf (f.kids n)) test) : ∀ (xs ys : List Nat) (k : Nat), nodesOf (f.kids n) = xs.reverse ++ ys → xs.length ≤ k →
    previousLoop h st nm name k xs.head? = some (xs.find? test)
  | [], ys, k, _, _ => by cases k <;> rfl
  | y :: xs, ys, k, hk, hl => by
    obtain ⟨k, rfl⟩ : ∃ j, k = j + 1 := ⟨k - 1, by simp at hl; omega⟩
    have hk' : nodesOf (f.kids n) = xs.reverse ++ y :: ys := by simpa using hk
    simp only [List.head?_cons, previousLoop, hc.cmp y (by rw [hk']; simp), R.getPrevious hn hk', List.find?_cons, List.getLast?_reverse]
    cases test y with
    | true => rfl
    | false => exact previousLoop_spec R hn hc xs (y :: ys) k hk' (by simpa using hl)

theorem getPreviousCalled_spec (R : Heap.Rep h f ns) (T : Tame f) {st : NsState} {nm name : List Char} {n m : Nat} (hn : f.live n = true) {test : Nat → Bool}
    (hc : Asks h st nm name (nodesOf (f.kids n)) test) {xs ys : List Nat} (hk : nodesOf (f.kids n) = xs ++ m :: ys) :
    getPreviousCalled h st m nm name = some (xs.reverse.find? test) := by
  have hlen := R.length_nodes T hn
  rw [hk] at hlen
  simp only [NsState.getPreviousCalled, R.getPrevious hn hk]
  rw [← List.head?_reverse]
  exact previousLoop_spec R hn hc xs.reverse (m :: ys) _ (by simpa using hk) (by simp at hlen ⊢; omega)

/-- What a search from `n` gives. -/
def Finds (f : Forest) (test : Nat → Bool) (n : Nat) (r : Option (Option Nat)) : Prop :=
  ∃ o, r = some o ∧ (∀ m, o = some m → (∃ c, Edge f n c ∧ Reach f c m) ∧ test m = true) ∧
    (o = none → ∀ c m, Edge f n c → Reach f c m → test m = false)

theorem findLoop_spec (R : Heap.Rep h f ns) {test : Nat → Bool} {n : Nat} (hn : f.live n = true) (g : Nat → Option (Option Nat))
    (hg : ∀ c, Edge f n c → Finds f test c (g c)) : ∀ (ys xs : List Nat) (k : Nat), nodesOf (f.kids n) = xs ++ ys → ys.length ≤ k →
    ∃ o, findLoop g h k ys.head? = some o ∧ (∀ m, o = some m → (∃ y ∈ ys, ∃ c, Edge f y c ∧ Reach f c m) ∧ test m = true) ∧
      (o = none → ∀ y ∈ ys, ∀ c m, Edge f y c → Reach f c m → test m = false)
  | [], xs, k, _, _ => ⟨none, by cases k <;> rfl, fun m h => (by cases h), fun _ y hy => (by simp at hy)⟩
  | y :: ys, xs, k, hk, hl => by
    obtain ⟨k, rfl⟩ : ∃ j, k = j + 1 := ⟨k - 1, by simp at hl; omega⟩
    obtain ⟨o, e, h1, h2⟩ := hg y ⟨hn, mem_nodesOf.mp (by rw [hk]; simp)⟩
    simp only [List.head?_cons, findLoop, e, R.getNext hn hk]
    cases o with
    | some m =>
      refine ⟨some m, rfl, fun m' hm' => ?_, fun h => (by cases h)⟩
      cases hm'
      obtain ⟨⟨c, k1, k2⟩, k3⟩ := h1 m rfl
      exact ⟨⟨y, List.mem_cons_self .., c, k1, k2⟩, k3⟩
    | none =>
      obtain ⟨o, e', h1', h2'⟩ := findLoop_spec R hn g hg ys (xs ++ [y]) k (by simpa using hk) (by simpa using hl)
      refine ⟨o, e', fun m hm => ?_, fun ho z hz c m ec hr => ?_⟩
      · obtain ⟨⟨z, hz, r⟩, k3⟩ := h1' m hm
        exact ⟨⟨z, List.mem_cons_of_mem _ hz, r⟩, k3⟩
      · rcases List.mem_cons.1 hz with rfl | hz
        · exact h2 rfl c m ec hr
        · exact h2' ho z hz c m ec hr

theorem findDepth_spec (R : Heap.Rep h f ns) (T : Tame f) {st : NsState} {nm name : List Char} {test : Nat → Bool} :
    ∀ (d n : Nat), Depth f d n → f.live n = true → (∀ m, Reach f n m → nodeCmp h st m nm name = some (test m)) →
    Finds f test n (findDepth h st nm name d n)
  | 0, _, hd, _, _ => hd.elim
  | d + 1, n, hd, hn, hc => by
    have edge : ∀ c ∈ nodesOf (f.kids n), Edge f n c := fun c hc => ⟨hn, mem_nodesOf.mp hc⟩
    have e := getChildCalled_spec R T hn (st := st) (nm := nm) (name := name) (test := test) ⟨fun c hx => hc c (.head (edge c hx) .refl)⟩
    unfold findDepth
    simp only [e]
    cases hf : (nodesOf (f.kids n)).find? test with
    | some c =>
      have h1 := List.mem_of_find?_eq_some hf
      have h2 := List.find?_some hf
      refine ⟨some c, rfl, fun m hm => ?_, fun h => (by cases h)⟩
      cases hm
      exact ⟨⟨c, edge c h1, .refl⟩, h2⟩
    | none =>
      have hno := List.find?_eq_none.1 hf
      obtain ⟨o, e', h1, h2⟩ := findLoop_spec R (test := test) hn (findDepth h st nm name d)
        (fun c ec => findDepth_spec R T d c (hd c ec) (T.closed n c ec) (fun m hm => hc m (.head ec hm)))
        (nodesOf (f.kids n)) [] h.nextNode rfl (R.length_nodes T hn)
      simp only [R.getFirstChild hn]
      refine ⟨o, e', fun m hm => ?_, fun ho c m ec hr => ?_⟩
      · obtain ⟨⟨y, hy, c, k1, k2⟩, k3⟩ := h1 m hm
        exact ⟨⟨y, edge y hy, .head k1 k2⟩, k3⟩
      · rcases hr.cases_head with rfl | ⟨b, eb, hr⟩
        · simpa using hno c (mem_nodesOf.mpr ec.2)
        · exact h2 ho c (mem_nodesOf.mpr ec.2) b m eb hr

end Axl.NsState
