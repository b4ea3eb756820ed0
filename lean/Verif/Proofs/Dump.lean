/-
Proofs about the dump functions.
-/
import Verif.Model.Dump
import Verif.Spec.Dump
import Verif.Props.Attr
import Verif.Proofs.AttrMade

namespace Axl
namespace Dump
open Str Spec.Dump Attrs

/-- The function writes this text where the memory is free for it, and nothing else. -/
def Step (f : Out → Option Out) (t : List Char) : Prop :=
  ∀ w r : List Char, t.length ≤ r.length →
    f ⟨w ++ r, w.length⟩ = some ⟨w ++ t ++ r.drop t.length, (w ++ t).length⟩

theorem step_emit (s : List Char) (k : Nat) (hk : k = s.length) : Step (fun o => emit o s k k) s := by
  intro w r h
  subst hk
  show emit _ _ _ _ = _
  unfold emit
  rw [if_pos (by simp; omega)]
  congr 2
  · simp only
    rw [List.take_left, List.drop_append, List.drop_eq_nil_of_le (by omega)]
    simp
  · simp

theorem Step.bind {f g : Out → Option Out} {s t : List Char} (hf : Step f s) (hg : Step g t) :
    Step (fun o => (f o).bind g) (s ++ t) := by
  intro w r h
  rw [List.length_append] at h
  show (f _).bind g = _
  rw [hf w r (by omega), Option.bind_some]
  have := hg (w ++ s) (r.drop s.length) (by rw [List.length_drop]; omega)
  rw [this, List.drop_drop, List.length_append]
  simp [List.append_assoc, Nat.add_assoc]

theorem Step.id : Step (fun o => some o) [] := by intro w r _; simp

theorem Step.congr {f g : Out → Option Out} {s t : List Char} (hf : Step f s) (h : ∀ o, g o = f o) (e : t = s) : Step g t := by
  intro w r hl
  rw [h, e]
  exact hf w r (by rw [← e]; exact hl)

/-! ## Attributes -/

/-- The attributes in the order of the dump. -/
def written : Order := fun a =>
  match a.ptr with
  | .list l => (l.map kv).reverse
  | .hash h => tablePairs h

theorem made_rep {a : Attrs} (h : a.Made) : ∃ ps, Rep a ps := h.rep

theorem written_perm {a : Attrs} {ps : List (List Char × List Char)} (h : Rep a ps) : (written a).Perm ps := by
  obtain ⟨hd, hr⟩ := h
  obtain ⟨num, ptr⟩ := a
  cases ptr with
  | list l => exact (List.reverse_perm _).trans hr.2.2
  | hash h => exact hr.1.table.2

theorem written_lists {a : Attrs} (h : a.Made) : a.Lists (written a) := by
  obtain ⟨ps, hr⟩ := made_rep h
  exact rep_lists hr (written_perm hr)

/-- The attributes are in a list, in the order of these pairs. -/
def Ordered (a : Attrs) (ps : List (List Char × List Char)) : Prop :=
  a.num = ps.length ∧ ∃ l, a.ptr = .list l ∧ l.map kv = ps

theorem ordered_setInternal {a : Attrs} {ps : List (List Char × List Char)} (h : Ordered a ps)
    (hd : (ps.map (·.1)).Nodup) (k v : List Char) (f : Bool)
    (hl : (if ps.any (fun p => p.1 == k) then ps else (k, v) :: ps).length ≤ 10) {r : Bool} {a' : Attrs}
    (hs : a.setInternal k v f = some (r, a')) :
    Ordered a' (if ps.any (fun p => p.1 == k) then ps else (k, v) :: ps) := by
  obtain ⟨num, ptr⟩ := a
  obtain ⟨h1, l, h2, h3⟩ := h
  simp only at h1 h2
  subst h2
  subst h3
  have hlen : (l.map kv).length ≤ 10 := by
    revert hl; split
    · exact id
    · simp; omega
  have hrep : Rep ⟨num, .list l⟩ (l.map kv) := ⟨hd, by simpa using h1, by simpa using hlen, List.Perm.refl _⟩
  have hfind := (rep_find hrep k).1
  cases hany : (l.map kv).any (fun p => p.1 == k) with
  | true =>
    obtain ⟨b, g1, g2⟩ := rep_setInternal hrep k v f
    rw [hs, hany] at g1
    cases g1
    unfold setInternal at hs
    rw [hany] at hfind
    simp only [hfind] at hs
    split at hs
    · simp at hs
    · split at hs <;> simp at hs <;> subst hs <;> exact ⟨h1, l, rfl, rfl⟩
  | false =>
    rw [hany] at hfind hl
    simp only [Bool.false_eq_true, if_false, List.length_cons, List.length_map] at hl
    simp only [List.length_map] at h1
    unfold setInternal at hs
    rw [if_pos (show num < 10 by omega)] at hs
    rw [hfind] at hs
    simp only [Bool.false_eq_true, if_false]
    split at hs
    · next hh =>
      have hl0 : l = [] := by rw [hasAttributes_list] at hh; simpa using hh
      subst hl0
      cases hs
      exact ⟨rfl, _, rfl, rfl⟩
    · cases hs
      exact ⟨by simp [h1], _, rfl, rfl⟩

theorem removeList_order {k : List Char} : ∀ {l : List Attr}, (l.map (·.name)).Nodup →
    ((removeList k l).getD l).map kv = (l.map kv).filter (fun p => p.1 != k)
  | [], _ => rfl
  | x :: xs, hd => by
    rw [List.map_cons, List.nodup_cons] at hd
    rw [removeList, cmp_beq]
    by_cases e : x.name = k
    · subst e
      simp only [beq_self_eq_true, if_true, Option.getD_some, List.map_cons, List.filter_cons, kv, bne_self_eq_false, Bool.false_eq_true, if_false]
      rw [List.filter_eq_self.2]
      intro p hp
      obtain ⟨q, hq, rfl⟩ := List.mem_map.1 hp
      have : q.name ≠ x.name := fun h => hd.1 (h ▸ List.mem_map.2 ⟨q, hq, rfl⟩)
      simpa [kv] using this
    · have ih := removeList_order (k := k) hd.2
      rw [if_neg (by simpa using e)]
      simp only [List.map_cons, List.filter_cons, kv]
      rw [if_pos (by simpa using e)]
      cases h : removeList k xs with
      | none => rw [h] at ih; simp at ih ⊢; simpa [kv] using ih
      | some l => rw [h] at ih; simp at ih ⊢; simpa [kv] using ih

theorem ordered_exec {a a' : Attrs} {past : List Spec.Attr.Op} {op : Spec.Attr.Op} (h : Ordered a (Spec.Attr.pairs past))
    (hn : ∀ s ∈ op.texts, NUL ∉ s) (hl : (Spec.Attr.pairs (op :: past)).length ≤ 10)
    (hl0 : (Spec.Attr.pairs past).length ≤ 10)
    (he : a.exec op = some a') : Ordered a' (Spec.Attr.pairs (op :: past)) := by
  have hd := C23_names_once past
  cases op with
  | set n v =>
    have h1 : NUL ∉ n := hn n (by simp [Spec.Attr.Op.texts])
    have h2 : NUL ∉ v := hn v (by simp [Spec.Attr.Op.texts])
    simp only [exec, setAttribute] at he
    rw [Spec.Attr.pairs] at hl ⊢
    by_cases hne : n = []
    · simp only [hne, if_true, true_or] at he ⊢
      cases he
      exact h
    · simp only [hne, if_false, false_or] at he hl ⊢
      rw [setValue_spec _ h1, setValue_spec _ h2] at he
      simp only [Option.bind_eq_bind, Option.bind_some, toStr_spec _ [] (nul_encode h1), toStr_spec _ [] (nul_encode h2)] at he
      rw [Option.bind_eq_some_iff] at he
      obtain ⟨⟨r, b⟩, g1, g2⟩ := he
      cases g2
      exact ordered_setInternal h hd _ _ _ hl g1
  | setRef n v f =>
    rw [Spec.Attr.pairs] at hl ⊢
    cases f with
    | false =>
      simp only [exec, setAttributeRef, Option.bind_eq_bind, Option.bind_eq_some_iff] at he
      obtain ⟨⟨r, b⟩, g1, g2⟩ := he
      cases g2
      exact ordered_setInternal h hd _ _ _ hl g1
    | true =>
      simp only [exec, setAttributeFromFactory, Option.bind_eq_bind, Option.bind_eq_some_iff] at he
      obtain ⟨⟨r, b⟩, g1, g2⟩ := he
      cases g2
      exact ordered_setInternal h hd _ _ _ hl g1
  | remove n =>
    obtain ⟨num, ptr⟩ := a
    obtain ⟨h1, l, h2, h3⟩ := h
    simp only at h1 h2
    subst h2
    rw [Spec.Attr.pairs]
    have hd' : (l.map (·.name)).Nodup := by rw [← h3, List.map_map] at hd; exact hd
    have hr := removeList_order (k := n) hd'
    simp only [exec, removeAttribute, hasAttributes_list] at he
    rw [h3] at hr
    cases l with
    | nil =>
      cases he
      simp only [List.map_nil] at h3
      rw [← h3]
      exact ⟨by rw [h1, ← h3]; rfl, [], rfl, rfl⟩
    | cons x xs =>
      simp only [List.isEmpty_cons, Bool.not_false, Bool.not_true, Bool.false_eq_true, if_false, if_pos (show num ≤ 10 by omega)] at he
      cases e : removeList n (x :: xs) with
      | none =>
        rw [e] at he hr
        cases he
        simp only [Option.getD_none, h3] at hr
        rw [← hr]
        exact ⟨h1, _, rfl, h3⟩
      | some l' =>
        rw [e] at he hr
        cases he
        refine ⟨?_, l', rfl, hr⟩
        show num - 1 = _
        rw [← hr, Option.getD_some, List.length_map]
        have hlen : ∀ {l l' : List Attr}, removeList n l = some l' → l'.length = l.length - 1 ∧ 0 < l.length := by
          intro l
          induction l with
          | nil => intro l' h; cases h
          | cons x xs ih =>
            intro l' h
            rw [removeList] at h
            split at h
            · cases h; simp
            · rw [Option.map_eq_some_iff] at h
              obtain ⟨m, hm, rfl⟩ := h
              have := ih hm
              simp; omega
        have := hlen e
        have h4 : (x :: xs).length = (Spec.Attr.pairs past).length := by rw [← h3, List.length_map]
        omega

theorem ordered_run : ∀ (ops past : List Spec.Attr.Op) {a b : Attrs}, Ordered a (Spec.Attr.pairs past) →
    (∀ op ∈ ops, ∀ s ∈ op.texts, NUL ∉ s) → AtMostTen (ops.reverse ++ past) → a.run ops = some b →
    Ordered b (Spec.Attr.pairs (ops.reverse ++ past))
  | [], past, a, b, h, _, _, hr => by cases hr; exact h
  | op :: ops, past, a, b, h, hn, hl, hr => by
    rw [run] at hr
    simp only [Option.bind_eq_bind, Option.bind_eq_some_iff] at hr
    obtain ⟨c, g1, g2⟩ := hr
    have hsuf : ∀ s t : List Spec.Attr.Op, AtMostTen (s ++ t) → AtMostTen t := by
      intro s t
      induction s with
      | nil => exact id
      | cons x xs ih => intro h; exact ih h.2
    have e : (op :: ops).reverse ++ past = ops.reverse ++ (op :: past) := by simp
    rw [e] at hl ⊢
    have h1 := hsuf _ _ hl
    refine ordered_run ops (op :: past) ?_ (fun o ho => hn o (by simp [ho])) hl g2
    refine ordered_exec h (hn op (by simp)) h1.1 ?_ g1
    cases past with
    | nil => simp [Spec.Attr.pairs]
    | cons _ _ => exact h1.2.1

theorem written_good : Order.Good written := by
  refine ⟨fun a h => written_lists h, ?_⟩
  intro ops a hn hl hr
  have := ordered_run ops [] (a := Attrs.empty) (b := a) ⟨rfl, [], rfl, rfl⟩ hn (by simpa using hl) hr
  rw [List.append_nil] at this
  obtain ⟨-, l, h1, h2⟩ := this
  unfold written
  rw [h1, ← h2]

theorem attrText_length (p : List Char × List Char) : (attrText p).length = attrSize p.1 p.2 := by
  simp [attrText, attrSize]; omega

theorem step_dumpAttr (n v : List Char) : Step (fun o => dumpAttr o n v) (attrText (n, v)) := by
  have h1 := step_emit [' '] 1 rfl
  have h2 := step_emit n _ rfl
  have h4 := step_emit v _ rfl
  have h3 : Step (fun o => openQuote o v) ['=', if '\'' ∈ v then '"' else '\''] := by
    unfold openQuote
    by_cases h : '\'' ∈ v
    · simp only [List.contains_eq_mem, h, decide_true, if_true]; exact step_emit _ 2 rfl
    · simp only [List.contains_eq_mem, h, decide_false, if_false]; exact step_emit _ 2 rfl
  have h5 : Step (fun o => closeQuote o v) [if '\'' ∈ v then '"' else '\''] := by
    unfold closeQuote
    by_cases h : '\'' ∈ v
    · simp only [List.contains_eq_mem, h, decide_true, if_true]; exact step_emit _ 1 rfl
    · simp only [List.contains_eq_mem, h, decide_false, if_false]; exact step_emit _ 1 rfl
  refine (h1.bind (h2.bind (h3.bind (h4.bind h5)))).congr (fun o => rfl) ?_
  simp [attrText]

theorem step_dumpList : ∀ l : List Attr, Step (fun o => dumpList o l) ((l.map kv).reverse.flatMap attrText)
  | [] => Step.id
  | x :: xs => by
    refine ((step_dumpList xs).bind (step_dumpAttr x.name x.value)).congr (fun o => ?_) ?_
    · show (match dumpList o xs with | none => none | some o => dumpAttr o x.name x.value) = _
      cases dumpList o xs <;> rfl
    · simp [kv]

theorem step_dumpPairs : ∀ ps : List (List Char × List Char),
    Step (fun o => dumpPairs o (ps.map sp)) (ps.flatMap attrText)
  | [] => by
    refine Step.id.congr (fun o => ?_) rfl
    simp [dumpPairs]
  | p :: ps => by
    refine ((step_dumpAttr p.1 p.2).bind (step_dumpPairs ps)).congr (fun o => ?_) (by simp)
    simp only [List.map_cons, sp, dumpPairs]
    cases dumpAttr o p.1 p.2 <;> rfl

theorem listSize_eq : ∀ (l : List Attr) (n : Nat), listSize l n = n + ((l.map kv).flatMap attrText).length
  | [], n => by simp [listSize]
  | x :: xs, n => by
    rw [listSize, listSize_eq xs]
    simp only [List.map_cons, List.flatMap_cons, List.length_append, attrText_length, kv]
    omega

theorem pairsSize_eq : ∀ (ps : List (List Char × List Char)) (n : Nat),
    pairsSize (ps.map sp) n = some (n + (ps.flatMap attrText).length)
  | [], n => by simp [pairsSize]
  | p :: ps, n => by
    simp only [List.map_cons, sp, pairsSize]
    have := pairsSize_eq ps (n + attrSize p.1 p.2)
    rw [this]
    simp only [List.flatMap_cons, List.length_append, attrText_length]
    congr 1; omega

theorem length_flatMap_reverse (f : List Char × List Char → List Char) (l : List (List Char × List Char)) :
    (l.reverse.flatMap f).length = (l.flatMap f).length := by
  induction l with
  | nil => rfl
  | cons x xs ih => simp only [List.reverse_cons, List.flatMap_append, List.length_append, ih, List.flatMap_cons, List.flatMap_nil, List.length_nil]; omega

theorem attrs_spec {a : Attrs} {ps : List (List Char × List Char)} (h : Rep a ps) :
    attrsSize a = some ((written a).flatMap attrText).length ∧
    Step (fun o => dumpAttrs o a) ((written a).flatMap attrText) := by
  obtain ⟨hd, hr⟩ := h
  obtain ⟨num, ptr⟩ := a
  cases ptr with
  | list l =>
    obtain ⟨h1, h2, h3⟩ := hr
    simp only at h1
    have e : written ⟨num, .list l⟩ = (l.map kv).reverse := rfl
    unfold attrsSize dumpAttrs
    rw [hasAttributes_list, e]
    cases l with
    | nil => exact ⟨rfl, Step.id⟩
    | cons x xs =>
      simp only [List.isEmpty_cons, Bool.not_false, Bool.not_true, Bool.false_eq_true, if_false]
      rw [if_pos (by omega)]
      simp only [if_pos (show num ≤ 10 by omega)]
      refine ⟨?_, step_dumpList (x :: xs)⟩
      rw [listSize_eq, length_flatMap_reverse]; simp
  | hash h =>
    obtain ⟨h1, h2, h3⟩ := hr
    simp only at h2
    have hne : (⟨num, .hash h⟩ : Attrs).hasAttributes = true := rfl
    have e : written ⟨num, .hash h⟩ = tablePairs h := rfl
    unfold attrsSize dumpAttrs
    simp only [hne, Bool.not_true, Bool.false_eq_true, if_false, if_neg (show ¬ num ≤ 10 by omega), e, h1.foreachAll]
    refine ⟨?_, ?_⟩
    · show pairsSize _ 0 = _
      rw [pairsSize_eq]; simp
    · exact (step_dumpPairs _).congr (fun o => rfl) rfl

/-! ## Layout -/

theorem step_indent : ∀ k : Nat, Step (fun o => indent o k) (List.replicate k ' ')
  | 0 => Step.id
  | k + 1 => by
    refine ((step_emit [' '] 1 rfl).bind (step_indent k)).congr (fun o => ?_) rfl
    simp only [indent]
    cases emit o [' '] 1 1 <;> rfl

/-- The arguments of the functions describe this layout. -/
def Describes (pretty : Bool) (tabular : Int) : Layout → Prop
  | .plain => pretty = false
  | .pretty t => pretty = true ∧ tabular = t

variable {pretty : Bool} {tabular : Int} {y : Layout}

theorem step_indentIf (h : Describes pretty tabular y) (level : Nat) :
    Step (indentIf pretty tabular level) (y.pad level) := by
  cases y with
  | plain =>
    have h : pretty = false := h
    subst h
    exact Step.id
  | pretty t =>
    obtain ⟨rfl, rfl⟩ := h
    refine (step_indent (t * level)).congr (fun o => ?_) rfl
    unfold indentIf
    simp only [if_true]
    congr 1

theorem step_newlineIf (h : Describes pretty tabular y) : Step (newlineIf pretty) y.line := by
  cases y with
  | plain =>
    have h : pretty = false := h
    subst h
    exact Step.id
  | pretty t =>
    obtain ⟨rfl, rfl⟩ := h
    exact step_emit ['\n'] 1 rfl

theorem pad_line_length (h : Describes pretty tabular y) (level : Nat) :
    ((y.pad level).length + y.line.length : Int) = if pretty then (level : Int) * tabular + 1 else 0 := by
  cases y with
  | plain =>
    have h : pretty = false := h
    subst h
    simp [Layout.pad, Layout.line]
  | pretty t =>
    obtain ⟨rfl, rfl⟩ := h
    simp [Layout.pad, Layout.line, Int.mul_comm]

/-! ## Items -/

theorem commentEnds_spec {s : List Char} (h : s ≠ []) :
    ∃ x z, commentEnds s = some (x, z) ∧ s.head? = some x ∧ s.getLast? = some z := by
  cases s with
  | nil => exact absurd rfl h
  | cons x xs =>
    refine ⟨x, (x :: xs).getLast (by simp), ?_, rfl, List.getLast?_eq_some_getLast (by simp)⟩
    unfold commentEnds
    rw [List.getLast?_eq_some_getLast (by simp)]

theorem step_openComment (x : Char) :
    Step (fun o => openComment o x) (c!"<!--" ++ if some x = some ' ' then [] else [' ']) := by
  unfold openComment
  by_cases h : x = ' '
  · simp only [h, if_true]; exact step_emit _ 4 rfl
  · simp only [h, if_false, Option.some.injEq]; exact step_emit _ 5 rfl

theorem step_closeComment (x : Char) :
    Step (fun o => closeComment o x) ((if some x = some ' ' then [] else [' ']) ++ c!"-->") := by
  unfold closeComment
  by_cases h : x = ' '
  · simp only [h, if_true]; exact step_emit _ 3 rfl
  · simp only [h, if_false, Option.some.injEq]; exact step_emit _ 4 rfl

theorem length_emitStr (a b : List Char) (s : List Char) : (a ++ s ++ b).length = s.length + (a.length + b.length) := by
  simp; omega

theorem leaf_spec (h : Describes pretty tabular y) (level : Nat) {l : Leaf} (hl : Leaf.Writable l) :
    leafSize pretty level tabular l = some ((leafText y level l).length : Int) ∧
    Step (fun o => dumpLeaf pretty tabular level o l) (leafText y level l) := by
  cases l with
  | content s => exact ⟨rfl, step_emit _ _ rfl⟩
  | cdata s =>
    refine ⟨?_, ?_⟩
    · have e1 : c!"<![CDATA[".length = 9 := rfl
      have e2 : c!"]]>".length = 3 := rfl
      simp only [leafSize, leafText, length_emitStr, e1, e2]
      congr 1
    · exact ((step_emit c!"<![CDATA[" 9 rfl).bind ((step_emit s _ rfl).bind (step_emit c!"]]>" 3 rfl))).congr (fun o => rfl) (by simp only [leafText, List.append_assoc])
  | ref s =>
    refine ⟨?_, ?_⟩
    · simp only [leafSize, leafText, List.length_append]; simp; omega
    · exact ((step_emit _ 1 rfl).bind ((step_emit s _ rfl).bind (step_emit _ 1 rfl))).congr (fun o => rfl) (by simp [leafText])
  | pi p =>
    obtain ⟨n, c⟩ := p
    cases c with
    | none => exact absurd rfl hl
    | some c =>
      refine ⟨?_, ?_⟩
      · simp only [leafSize, leafText, piSize, List.length_append]; simp; omega
      · refine ((step_emit _ 2 rfl).bind ((step_emit n _ rfl).bind ((step_emit _ 1 rfl).bind
          ((step_emit c _ rfl).bind (step_emit _ 2 rfl))))).congr (fun o => rfl) (by simp [leafText])
  | comment s =>
    obtain ⟨x, z, h1, h2, h3⟩ := commentEnds_spec (s := s) hl
    refine ⟨?_, ?_⟩
    · have hp := pad_line_length h (level + 1)
      simp only [leafSize, commentSize, h1, leafText, commentText, h2, h3, List.length_append]
      by_cases e1 : x = ' ' <;> by_cases e2 : z = ' ' <;> cases pretty <;> simp [e1, e2] at hp ⊢ <;> omega
    · refine ((step_indentIf h (level + 1)).bind ((step_openComment x).bind ((step_emit s _ rfl).bind
        ((step_closeComment z).bind (step_newlineIf h))))).congr (fun o => ?_) ?_
      · simp only [dumpLeaf, dumpComment, h1]
        rfl
      · simp only [leafText, commentText, h2, h3, List.append_assoc]

theorem haveChildsAux_iff : ∀ i : Items, i.haveChildsAux = decide (hasBlocks i)
  | .nil => rfl
  | .node _ _ => rfl
  | .leaf l next => by
    have ih := haveChildsAux_iff next
    cases l <;> simp [Items.haveChildsAux, hasBlocks, ih]

theorem isEmpty_iff : ∀ i : Items, i.isEmpty = !decide (hasTexts i)
  | .nil => rfl
  | .node _ next => isEmpty_iff next
  | .leaf l next => by
    have ih := isEmpty_iff next
    cases l <;> simp [Items.isEmpty, hasTexts, ih]

theorem step_dumpOpen (name : List Char) {a : Attrs} {t : List Char} (ha : Step (fun o => dumpAttrs o a) t) :
    Step (fun o => dumpOpen o name a) (['<'] ++ (name ++ t)) :=
  ((step_emit _ 1 rfl).bind ((step_emit name _ rfl).bind ha)).congr (fun o => rfl) rfl

theorem step_dumpClose (h : Describes pretty tabular y) (name : List Char) :
    Step (fun o => dumpClose pretty o name) (c!"</" ++ (name ++ (['>'] ++ y.line))) :=
  ((step_emit _ 2 rfl).bind ((step_emit name _ rfl).bind ((step_emit _ 1 rfl).bind (step_newlineIf h)))).congr (fun o => rfl) rfl

mutual
theorem node_spec (h : Describes pretty tabular y) : ∀ (level : Nat) (n : Node), Writable n →
    nodeSize pretty tabular level n = some ((nodeText written y level n).length : Int) ∧
    Step (fun o => nodeDump pretty tabular level o n) (nodeText written y level n)
  | level, .mk name attrs items, hw => by
    rw [Writable] at hw
    obtain ⟨ps, hrep⟩ := made_rep hw.1
    obtain ⟨hs, hst⟩ := attrs_spec hrep
    obtain ⟨is, ist⟩ := items_spec h level items hw.2
    have hpl := pad_line_length h level
    have hpl0 := pad_line_length h 0
    have hopen := step_dumpOpen name hst
    by_cases hb : hasBlocks items
    · constructor
      · rw [nodeSize, hs, nodeText]
        simp only [haveChildsAux_iff, hb, decide_true, Bool.true_or, if_true, is, List.length_append]
        cases pretty <;> cases y <;> simp_all [Describes, Layout.pad, Layout.line] <;> grind
      · refine ((step_indentIf h level).bind (hopen.bind ((step_emit ['>'] 1 rfl).bind ((step_newlineIf h).bind
          (ist.bind ((step_indentIf h level).bind (step_dumpClose h name))))))).congr (fun o => ?_) ?_
        · rw [nodeDump]
          simp only [haveChildsAux_iff, hb, decide_true, Bool.not_true, Bool.and_false]
          rfl
        · rw [nodeText]; simp [hb]
    · by_cases ht : hasTexts items
      · constructor
        · rw [nodeSize, hs, nodeText]
          simp only [haveChildsAux_iff, isEmpty_iff, hb, ht, decide_true, decide_false, Bool.not_true, Bool.not_false, Bool.and_true, Bool.or_true, if_true, is, List.length_append]
          cases pretty <;> cases y <;> simp_all [Describes, Layout.pad, Layout.line] <;> grind
        · refine ((step_indentIf h level).bind (hopen.bind ((step_emit ['>'] 1 rfl).bind
            (ist.bind (step_dumpClose h name))))).congr (fun o => ?_) ?_
          · rw [nodeDump]
            simp only [haveChildsAux_iff, isEmpty_iff, hb, ht, decide_true, decide_false, Bool.not_true, Bool.not_false, Bool.false_and]
            rfl
          · rw [nodeText]; simp [hb, ht]
      · constructor
        · rw [nodeSize, hs, nodeText]
          simp only [haveChildsAux_iff, isEmpty_iff, hb, ht, decide_false, Bool.not_true, Bool.not_false, Bool.and_false, Bool.or_false, if_false, Bool.false_eq_true, List.length_append]
          cases pretty <;> cases y <;> simp_all [Describes, Layout.pad, Layout.line] <;> grind
        · refine ((step_indentIf h level).bind (hopen.bind ((step_emit [' ', '/', '>'] 3 rfl).bind
            (step_newlineIf h)))).congr (fun o => ?_) ?_
          · rw [nodeDump]
            simp only [haveChildsAux_iff, isEmpty_iff, hb, ht, decide_false, Bool.not_false, Bool.and_true]
            rfl
          · rw [nodeText]; simp [hb, ht]
theorem items_spec (h : Describes pretty tabular y) : ∀ (level : Nat) (i : Items), WritableItems i →
    itemsSize pretty tabular level i = some ((itemsText written y level i).length : Int) ∧
    Step (fun o => itemsDump pretty tabular level o i) (itemsText written y level i)
  | level, .nil, _ => by
    refine ⟨by simp [itemsSize, itemsText], Step.id.congr (fun o => by simp [itemsDump]) (by simp [itemsText])⟩
  | level, .node n next, hw => by
    rw [WritableItems] at hw
    obtain ⟨h1, h2⟩ := node_spec h (level + 1) n hw.1
    obtain ⟨h3, h4⟩ := items_spec h level next hw.2
    rw [Int.natCast_add] at h1 h2
    refine ⟨?_, (h2.bind h4).congr (fun o => ?_) (by simp [itemsText])⟩
    · rw [itemsSize]
      rw [show ((1 : Nat) : Int) = 1 from rfl] at h1
      simp [h1, h3, itemsText]
    · rw [itemsDump]
      rw [show ((1 : Nat) : Int) = 1 from rfl]
      cases nodeDump pretty tabular (level + 1) o n <;> rfl
  | level, .leaf l next, hw => by
    rw [WritableItems] at hw
    obtain ⟨h1, h2⟩ := leaf_spec h level hw.1
    obtain ⟨h3, h4⟩ := items_spec h level next hw.2
    refine ⟨?_, (h2.bind h4).congr (fun o => ?_) (by simp [itemsText])⟩
    · rw [itemsSize]; simp [h1, h3, itemsText]
    · rw [itemsDump]
      cases dumpLeaf pretty tabular level o l <;> rfl
end

theorem step_run {f : Out → Option Out} {t : List Char} (h : Step f t) :
    f ⟨List.replicate (t.length + 1) NUL, 0⟩ = some ⟨t ++ [NUL], t.length⟩ := by
  have := h [] (List.replicate (t.length + 1) NUL) (by simp)
  simpa using this

theorem alloc_nat (n : Nat) : alloc n = some (List.replicate (n + 1) NUL) := by
  unfold alloc
  rw [if_pos (by omega)]
  congr 1

theorem dumpNode_spec (h : Describes pretty tabular y) (level : Nat) (n : Node) (hw : Writable n) :
    dumpNode n pretty level tabular =
      some (some (nodeText written y level n ++ [NUL], ((nodeText written y level n).length : Int))) := by
  obtain ⟨h1, h2⟩ := node_spec h level n hw
  unfold dumpNode
  simp only [h1, alloc_nat, Option.bind_eq_bind, Option.bind_some]
  rw [step_run h2]
  simp

theorem dumpDoc_spec (h : Describes pretty tabular y) (d : Doc) (hv : d.noValue = []) (hw : Writable d.root) :
    dumpDoc d pretty tabular = some (some (docText written y d ++ [NUL], ((docText written y d).length : Int))) := by
  obtain ⟨h1, h2⟩ := node_spec h 0 d.root hw
  have he : Step (fun o => dumpEncoding o d.encoding) (encodingText d.encoding) := by
    cases d.encoding with
    | none => exact Step.id
    | some e =>
      exact ((step_emit _ 10 rfl).bind ((step_emit e _ rfl).bind (step_emit _ 2 rfl))).congr (fun o => rfl) (by simp [encodingText])
  have hs : Step (fun o => dumpStandalone o d.standalone) (if d.standalone then c!"standalone='yes' " else []) := by
    cases d.standalone
    · exact Step.id
    · exact step_emit _ 17 rfl
  have hall := (step_emit c!"<?xml version='1.0' " 20 rfl).bind (he.bind (hs.bind ((step_emit c!"?>" 2 rfl).bind
    ((step_newlineIf h).bind h2))))
  have hsize : docSizeOf d pretty tabular = some ((docText written y d).length : Int) := by
    unfold docSizeOf docSize
    rw [hv]
    simp only [List.isEmpty_nil, if_true]
    rw [show ((0 : Nat) : Int) = 0 from rfl] at h1
    rw [h1]
    simp only [docText, headerText, List.length_append]
    congr 1
    have e1 : c!"<?xml version='1.0' ".length = 20 := rfl
    have e2 : c!"?>".length = 2 := rfl
    have e3 : c!"encoding='".length = 10 := rfl
    have e4 : c!"' ".length = 2 := rfl
    have e5 : c!"standalone='yes' ".length = 17 := rfl
    have hl := pad_line_length h 0
    have hpad : (y.pad 0).length = 0 := by cases y <;> rfl
    have hline : (y.line.length : Int) = if pretty then 1 else 0 := by
      rw [hpad] at hl
      cases pretty <;> simp at hl ⊢ <;> omega
    have hst : ((if d.standalone = true then c!"standalone='yes' " else []).length : Int) = if d.standalone then 17 else 0 := by
      cases d.standalone
      · rfl
      · simp only [if_true, e5]; rfl
    have henc : (((encodingText d.encoding).length : Nat) : Int) = encodingSize d.encoding := by
      cases d.encoding with
      | none => rfl
      | some e => simp only [encodingText, encodingSize, List.length_append, e3, e4]; omega
    rw [e1, e2]
    simp only [Int.natCast_add, hst, henc, hline]
    omega
  have e : docText written y d = c!"<?xml version='1.0' " ++ (encodingText d.encoding ++ ((if d.standalone = true then c!"standalone='yes' " else []) ++
          (c!"?>" ++ (y.line ++ nodeText written y 0 d.root)))) := by
    unfold docText headerText
    simp only [List.append_assoc]
  have hrun := step_run (hall.congr (fun o => rfl) e)
  unfold dumpDoc
  simp only [hsize, alloc_nat, Option.bind_eq_bind, Option.bind_some]
  rw [show (fun o => nodeDump pretty tabular ((0 : Nat) : Int) o d.root) = (fun o => nodeDump pretty tabular 0 o d.root) from rfl] at hrun
  have assoc : ∀ (f1 f2 f3 f4 f5 f6 : Out → Option Out) (g : Out → Option (Option (List Char × Int))) (o : Out),
      (((f1 o).bind fun o => (f2 o).bind fun o => (f3 o).bind fun o => (f4 o).bind fun o => (f5 o).bind f6).bind g) =
      ((f1 o).bind fun o => (f2 o).bind fun o => (f3 o).bind fun o => (f4 o).bind fun o => (f5 o).bind fun o => (f6 o).bind g) := by
    intros; simp only [Option.bind_assoc]
  refine Eq.trans (assoc (fun o => emit o c!"<?xml version='1.0' " 20 20) (fun o => dumpEncoding o d.encoding)
    (fun o => dumpStandalone o d.standalone) (fun o => emit o c!"?>" 2 2) (newlineIf pretty)
    (fun o => nodeDump pretty tabular 0 o d.root) _ _).symm ?_
  rw [hrun]
  simp

end Dump
end Axl
