/-
Proofs for C81: the run of a program, and what is read again.
-/
import Verif.Proofs.BuildTrim

namespace Axl.Work
open Spec.Build Spec.Tree Spec.Tree.Forest Spec.Attr Str Dump
open Spec.RoundTrip (Before IsName NameChar Quotable FineAttr FineLeaf Fine FineItems Allowed after NoContent SlashFirst Bare padded)
open Spec.RoundTrip (Same SameItems SameAttrs SameLeaf)

/-! ### The run -/

theorem live_nodes {h : Heap} {f : Forest} (I : Heap.Inv h f) {n : Nat} (hn : f.live n = true) : ∃ c, h.nodes n = some c := by
  obtain ⟨c, hc, -⟩ := (I.shows hn).node
  exact ⟨c, hc⟩

theorem setContent_stored (s : List Char) (hs : NUL ∉ s) :
    (Escape.setContent (s ++ [NUL]) (-1)).bind Escape.copyOut = some (encode s) := by
  have h := Escape.setContent_spec s [NUL] (by simp) (Escape.noStraddle_cstring s [])
  have hz : Escape.setContent (s ++ [NUL]) (-1) = Escape.setContent (s ++ [NUL]) s.length := by
    unfold Escape.setContent
    have : Escape.sizeOr (s ++ [NUL]) (-1) = Escape.sizeOr (s ++ [NUL]) s.length := by
      unfold Escape.sizeOr
      rw [if_pos rfl, if_neg (by omega), Escape.strlen_nul _ hs]; simp
    rw [this]
  rw [hz, h]
  simp [Escape.copyOut, Attrs.encode_eq]

theorem setCdata_stored (s : List Char) (hs : NUL ∉ s) (hc : Spec.Escape.NoCdataEnd s) :
    (Escape.setCdataContent (s ++ [NUL]) (-1)).bind Escape.copyOut = some (encode s) := by
  rw [Escape.setCdataContent_spec s [] hs (-1) (Or.inr rfl), Escape.escC_noEnd true s hc]
  simp [Escape.copyOut, Attrs.encode_eq]

theorem run_spec : ∀ (calls : List Call) {w : Work} {s : State}, Heap.Inv w.heap (sf s.forest) → (∀ n, Fit (w.attrs n) (s.attrs n)) →
    Spec.Build.Fits s calls = true → (∀ c ∈ calls, TidyCall c) →
    ∃ w', w.run calls = some w' ∧ Heap.Inv w'.heap (sf (s.run calls).forest) ∧ ∀ n, Fit (w'.attrs n) ((s.run calls).attrs n)
  | [], w, s, I, F, _, _ => ⟨w, rfl, I, F⟩
  | c :: cs, w, s, I, F, hf, ht => by
    simp only [Spec.Build.Fits, Bool.and_eq_true] at hf
    have htc := ht c (by simp)
    have hts : ∀ c ∈ cs, TidyCall c := fun d hd => ht d (by simp [hd])
    have go : ∀ w1, w.exec c = some w1 → Heap.Inv w1.heap (sf (c.step s).forest) → (∀ n, Fit (w1.attrs n) ((c.step s).attrs n)) →
        ∃ w', w.run (c :: cs) = some w' ∧ Heap.Inv w'.heap (sf (s.run (c :: cs)).forest) ∧
          ∀ n, Fit (w'.attrs n) ((s.run (c :: cs)).attrs n) := by
      intro w1 he hI hF
      obtain ⟨w', g1, g2, g3⟩ := run_spec cs hI hF hf.2 hts
      exact ⟨w', by simp [Work.run, he, g1], g2, g3⟩
    -- a call on the attributes
    have attrCase : ∀ (n : Nat) (op : Spec.Attr.Op) (l : List (List Char × List Char)), w.exec c = w.attr n op → s.forest.live n = true →
        (∃ b, (w.attrs n).exec op = some b ∧ Fit b l) → c.step s = s.setAttrs n l →
        ∃ w', w.run (c :: cs) = some w' ∧ Heap.Inv w'.heap (sf (s.run (c :: cs)).forest) ∧
          ∀ n, Fit (w'.attrs n) ((s.run (c :: cs)).attrs n) := by
      intro n op l he hl hb hs
      obtain ⟨b, h1, h2⟩ := hb
      obtain ⟨cell, hcell⟩ := live_nodes I (n := n) hl
      refine go { w with attrs := fun m => if m = n then b else w.attrs m } (by rw [he]; simp [Work.attr, hcell, h1]) (by rw [hs]; exact I) ?_
      intro m
      rw [hs]
      simp only [State.setAttrs]
      split
      · exact h2
      · exact F m
    have textCase : ∀ (p : Nat) (k : TextKind) (x t : List Char), s.forest.live p = true → sc (.text k x) = .text k t →
        ∃ h', w.heap.setChild p (.text k t) = some h' ∧ Heap.Inv h' (sf (s.forest.setKids p (s.forest.kids p ++ [.text k x]))) := by
      intro p k x t hl hsc
      obtain ⟨h', e, I'⟩ := Heap.inv_exec (op := .setChild p (.text k t)) I (by simp [fits, mayGo, sf, hl])
      refine ⟨h', e, ?_⟩
      rw [← setKids_sf]
      simpa [step, sf, hsc] using I'
    cases c with
    | tree op =>
      simp only [Call.fits, Bool.and_eq_true] at hf
      obtain ⟨h', e, I'⟩ := Heap.inv_exec (op := op) I (by rw [fits_sf s.forest hf.1.1]; exact hf.1.2)
      rw [step_sf s.forest hf.1.1] at I'
      exact go { w with heap := h' } (by simp [exec, Work.tree, e]) I' F
    | copy n attributes childs =>
      obtain ⟨w1, e, I', F'⟩ := copy_spec I F hf.1 attributes childs
      exact go w1 (by simp [exec, e]) I' F'
    | content p x =>
      obtain ⟨h', e, I'⟩ := textCase p .content x (encode x) hf.1 rfl
      refine go { w with heap := h' } ?_ I' F
      have := setContent_stored x htc
      cases hc : Escape.setContent (x ++ [NUL]) (-1) with
      | none => rw [hc] at this; cases this
      | some c =>
        rw [hc, Option.bind_some] at this
        simp [exec, Work.setContent, hc, this, e]
    | cdata p x =>
      obtain ⟨h', e, I'⟩ := textCase p .cdata x (encode x) hf.1 rfl
      refine go { w with heap := h' } ?_ I' F
      have := setCdata_stored x htc.1 htc.2
      cases hc : Escape.setCdataContent (x ++ [NUL]) (-1) with
      | none => rw [hc] at this; cases this
      | some c =>
        rw [hc, Option.bind_some] at this
        simp [exec, Work.setCdata, hc, this, e]
    | setAttr n k v =>
      refine attrCase n (.set k v) _ rfl hf.1 ((F n).set htc) ?_
      simp only [Call.step]
      split
      · have : (fun m => if m = n then s.attrs n else s.attrs m) = s.attrs := by
          funext m
          split
          · next e => rw [e]
          · rfl
        simp only [State.setAttrs, this]
      · rfl
    | removeAttr n k =>
      simp only [Call.fits, Bool.and_eq_true, Bool.not_eq_true'] at hf
      exact attrCase n (.remove k) _ rfl hf.1.1 ((F n).remove htc hf.1.2) rfl
    | trimAttr n k =>
      obtain ⟨r, b, h1, h2⟩ := (F n).trimmed k
      obtain ⟨cell, hcell⟩ := live_nodes I (n := n) hf.1
      refine go { w with attrs := fun m => if m = n then b else w.attrs m } (by simp [exec, Work.trimAttr, hcell, h1]) I ?_
      intro m
      simp only [Call.step, State.setAttrs]
      split
      · exact h2
      · exact F m

/-! ### The values -/

/-- What a lookup gives after the calls. -/
theorem getValue_given {s : State} {n : Nat} {a : Attrs} (F : Fit a (s.attrs n)) (k : List Char) :
    a.getValue k = some ((s.value n k).map encode) := by
  rw [(Attrs.rep_find F.rep k).2, List.find?_map]
  simp only [State.value, Option.map_map]
  rfl

theorem given_good {s : State} {n : Nat} {a : Attrs} (F : Fit a (s.attrs n)) {k v : List Char} (h : s.value n k = some v) : Good (k, v) := by
  unfold State.value at h
  cases hf : (s.attrs n).find? (·.1 == k) with
  | none => simp [hf] at h
  | some p =>
    simp only [hf, Option.map_some, Option.some.injEq] at h
    have h1 := List.find?_some hf
    have h2 := F.good p (List.mem_of_find?_eq_some hf)
    simp only [beq_iff_eq] at h1
    rw [← h, ← h1]
    exact h2

/-! ### The tree can be read again -/

theorem noMarkup_encode (s : List Char) : ∀ c ∈ encode s, c ≠ '<' ∧ c ≠ '>' ∧ c ≠ '\'' ∧ c ≠ '"' := by
  rw [Attrs.encode_eq]; exact (Escape.noMarkup_esc s).1

theorem encode_cons (c : Char) (s : List Char) : encode (c :: s) = encode [c] ++ encode s := by simp [encode]

theorem encode_white {c : Char} (h : Spec.Xml.White c) : encode [c] = [c] := by
  rcases h with rfl | rfl | rfl | rfl <;> decide

theorem encode_head_white {c : Char} (h : ¬ Spec.Xml.White c) : ∃ d l, encode [c] = d :: l ∧ ¬ Spec.Xml.White d := by
  unfold encode
  simp only [List.flatMap_cons, List.flatMap_nil, List.append_nil]
  cases hf : Spec.Escape.entities.find? (fun e => e.2 == c) with
  | none => exact ⟨c, [], rfl, h⟩
  | some e =>
    have := List.mem_of_find?_eq_some hf
    simp only [Spec.Escape.entities, List.mem_cons, List.not_mem_nil, or_false] at this
    have amp : ¬ Spec.Xml.White '&' := by unfold Spec.Xml.White; decide
    rcases this with rfl | rfl | rfl | rfl | rfl <;> exact ⟨'&', _, rfl, amp⟩

theorem blank_encode : ∀ {s : List Char}, Spec.Xml.Blank (encode s) → Spec.Xml.Blank s
  | [], _ => by simp [Spec.Xml.Blank]
  | c :: s, h => by
    rw [encode_cons] at h
    have hs : Spec.Xml.Blank s := blank_encode fun d hd => h d (by simp [hd])
    intro d hd
    rcases List.mem_cons.1 hd with rfl | hd
    · refine Classical.byContradiction fun hw => ?_
      obtain ⟨e, l, h1, h2⟩ := encode_head_white hw
      exact h2 (h e (by simp [h1]))
    · exact hs d hd

theorem head_encode {s : List Char} (h : ∀ c ∈ s.head?, ¬ Spec.Xml.White c) : ∀ c ∈ (encode s).head?, ¬ Spec.Xml.White c := by
  cases s with
  | nil => simp [encode]
  | cons c s =>
    obtain ⟨d, l, h1, h2⟩ := encode_head_white (h c (by simp))
    rw [encode_cons, h1]
    simpa using h2

theorem upTo_cdata (s : List Char) : Spec.Xml.UpTo c!"]]>" (encode s) := by
  rintro ⟨a, b, h⟩
  have : '>' ∈ encode s ++ [']', ']'] := by
    have h2 : '>' ∈ a ++ c!"]]>" ++ b := by simp
    rw [h] at h2
    exact h2
  rw [List.mem_append] at this
  rcases this with h1 | h1
  · exact (noMarkup_encode s _ h1).2.1 rfl
  · simp at h1

theorem slash_encode (s : List Char) : ¬ c!"/>" <+: encode s := by
  rintro ⟨t, h⟩
  exact (noMarkup_encode s '>' (by rw [← h]; simp)).2.1 rfl

theorem noContent_items {f : Forest} {x : Extra} : ∀ {l' : List Child} {items : Items}, IsItems f x l' items →
    ∀ {l : List Child}, l' = l.map sc → (∀ s, .text .content s ∉ l) → NoContent items
  | _, _, .nil, _, _, _ => trivial
  | _, _, .node _ hi, l, e, h => by
    cases l with
    | nil => cases e
    | cons c l =>
      simp only [List.map_cons, List.cons.injEq] at e
      have ih := noContent_items hi e.2 (fun s hs => h s (by simp [hs]))
      unfold NoContent
      exact ih
  | _, _, .text (k := k) hi, l, e, h => by
    cases l with
    | nil => cases e
    | cons c l =>
      simp only [List.map_cons, List.cons.injEq] at e
      have ih := noContent_items hi e.2 (fun s hs => h s (by simp [hs]))
      cases k with
      | content =>
        exfalso
        cases c with
        | node m => simp at e
        | text k s =>
          cases k with
          | content => exact h s (by simp)
          | _ => simp [sc] at e
      | cdata => exact ih
      | comment => exact ih
      | pi => exact ih

theorem blocks_items {f : Forest} {x : Extra} : ∀ {l' : List Child} {items : Items}, IsItems f x l' items →
    ∀ {l : List Child}, l' = l.map sc → Spec.Dump.hasBlocks items → l.any block = true
  | _, _, .nil, _, _, h => h.elim
  | _, _, .node _ _, l, e, _ => by
    cases l with
    | nil => cases e
    | cons c l =>
      simp only [List.map_cons, List.cons.injEq] at e
      have : c = .node _ := sc_eq_node.1 e.1.symm
      simp [this, block]
  | _, _, .text (k := k) (s := s) hi, l, e, h => by
    cases l with
    | nil => cases e
    | cons c l =>
      simp only [List.map_cons, List.cons.injEq] at e
      cases c with
      | node m => simp at e
      | text k' s' =>
        cases k' <;> cases k <;> simp [sc] at e <;>
          first
          | (simp [block]; done)
          | (simp only [Extra.leaf, Spec.Dump.hasBlocks, false_or] at h; simpa [block] using blocks_items hi e.2 h)

variable {y : Spec.Dump.Layout} {s : State} {x : Extra}

theorem fine_items_cons {l : List Child} {items : Items} {b : Before} {lf : Leaf} (h1 : FineLeaf lf) (h2 : Allowed b lf)
    (h3 : FineItems y (after lf) items) : FineItems y b (.leaf lf items) := by
  unfold FineItems; exact ⟨h1, h2, h3⟩

mutual
theorem fine_tree (ha : ∀ n, Fit (x.attrs n) (s.attrs n)) (T : Tidy y x.pi s.forest) :
    ∀ {n : Nat} {t : Node}, IsTree (sf s.forest) x n t → Fine y t
  | n, _, .mk (items := items) hl hi => by
    have hl' : s.forest.live n = true := hl
    have hg := getValue_given (ha n)
    unfold Fine
    refine ⟨T.name n hl', (ha n).made, ?_, ?_, ?_, fine_items ha T hi rfl (T.kids n hl')⟩
    · intro k v hv
      rw [hg k] at hv
      cases hgv : s.value n k with
      | none => simp [hgv] at hv
      | some u =>
        simp only [hgv, Option.map_some, Option.some.injEq] at hv
        subst hv
        obtain ⟨g1, g2, g3⟩ := given_good (ha n) hgv
        exact ⟨g1, ⟨Attrs.nul_encode g3, fun h => (noMarkup_encode u _ h.1).2.2.1 rfl⟩, fun h => absurd h g2⟩
    · rcases T.lines with h | h
      · exact Or.inl h
      · exact Or.inr fun hb => noContent_items hi rfl (h n hl' (blocks_items hi rfl hb))
    · rintro ⟨-, hs⟩
      have : ∀ {l' : List Child} {items : Items}, IsItems (sf s.forest) x l' items → ∀ l : List Child, l' = l.map sc → ¬ SlashFirst items := by
        intro l' items hi l e hs
        cases hi with
        | nil => exact hs
        | node _ _ => exact hs
        | @text k s _ _ _ =>
          cases l with
          | nil => cases e
          | cons c l =>
            simp only [List.map_cons, List.cons.injEq] at e
            cases k with
            | content =>
              cases c with
              | node m => simp at e
              | text k' s' =>
                cases k' <;> simp [sc] at e
                rw [e.1] at hs
                exact slash_encode s' hs
            | cdata => exact hs
            | comment => exact hs
            | pi => exact hs
      exact this hi _ rfl hs
theorem fine_items (ha : ∀ n, Fit (x.attrs n) (s.attrs n)) (T : Tidy y x.pi s.forest) :
    ∀ {l' : List Child} {items : Items}, IsItems (sf s.forest) x l' items → ∀ {l : List Child} {b : Before}, l' = l.map sc →
      TidyKids x.pi b l → FineItems y b items
  | _, _, .nil, _, _, _, _ => by unfold FineItems; trivial
  | _, _, .node htr hi, l, b, e, hk => by
    cases l with
    | nil => cases e
    | cons c l =>
      simp only [List.map_cons, List.cons.injEq] at e
      have hc : c = .node _ := sc_eq_node.1 e.1.symm
      subst hc
      unfold FineItems
      unfold TidyKids at hk
      exact ⟨fine_tree ha T htr, fine_items ha T hi e.2 hk⟩
  | _, _, .text (k := k) (s := s) hi, l, b, e, hk => by
    cases l with
    | nil => cases e
    | cons c l =>
      simp only [List.map_cons, List.cons.injEq] at e
      cases c with
      | node m => simp at e
      | text k' s' =>
        cases k' with
        | content =>
          cases k <;> simp [sc] at e
          obtain ⟨rfl, e⟩ := e
          unfold TidyKids at hk
          obtain ⟨h1, h2, h3, h4⟩ := hk
          refine fine_items_cons (l := []) ⟨fun hb => h1 (blank_encode hb), fun h => (noMarkup_encode s' _ h).1 rfl, Attrs.nul_encode h2⟩ ?_
            (fine_items ha T hi e h4)
          cases b with
          | text => exact h3
          | misc => exact head_encode h3
          | other => trivial
        | cdata =>
          cases k <;> simp [sc] at e
          obtain ⟨rfl, e⟩ := e
          unfold TidyKids at hk
          obtain ⟨h1, h2, h3⟩ := hk
          exact fine_items_cons (l := []) ⟨upTo_cdata s', Attrs.nul_encode h1⟩ (by cases b <;> trivial) (fine_items ha T hi e h3)
        | comment =>
          cases k <;> simp [sc] at e
          obtain ⟨rfl, e⟩ := e
          unfold TidyKids at hk
          obtain ⟨h1, h2, h3⟩ := hk
          exact fine_items_cons (l := []) ⟨h1, h2⟩ (by cases b <;> trivial) (fine_items ha T hi e h3)
        | pi =>
          cases k <;> simp [sc] at e
          obtain ⟨rfl, e⟩ := e
          unfold TidyKids at hk
          obtain ⟨h1, h2⟩ := hk
          exact fine_items_cons (l := []) h1 (by cases b <;> trivial) (fine_items ha T hi e h2)
end

/-! ### What is read -/

theorem readAs_encode {s : List Char} (hs : NUL ∉ s) : ReadAs (encode s) s := by
  obtain ⟨mem, out, rest, g1, g2, g3⟩ := Escape.getContentTrans_spec [encode s] (by simp) (by simpa using Attrs.nul_encode hs)
  simp only [List.flatten_cons, List.flatten_nil, List.append_nil] at g3
  rw [Attrs.encode_eq] at g3
  have := Escape.decodes_unique g3 (Escape.decodes_esc s)
  subst this
  exact ⟨rest, by rw [← nul_eq, ← g2]; exact g1⟩

theorem trans_given {a : Attrs} {k : List Char} {o : Option (List Char)} (h : a.getValue k = some (o.map encode)) (ho : ∀ v ∈ o, NUL ∉ v) :
    a.getValueTrans k = some o := by
  cases o with
  | none => simp [Attrs.getValueTrans, show a.getValue k = some none from h]
  | some v =>
    obtain ⟨out, g1, g2⟩ := Attrs.getValueTrans_of h (Attrs.nul_encode (ho v rfl))
    rw [Attrs.encode_eq] at g2
    rw [g1, Escape.decodes_unique g2 (Escape.decodes_esc v)]

mutual
theorem holds_tree (ha : ∀ n, Fit (x.attrs n) (s.attrs n)) (T : Tidy y x.pi s.forest) :
    ∀ {n : Nat} {t : Node}, IsTree (sf s.forest) x n t → ∀ {t' : Node}, Same t t' →
      Holds s.forest x.pi s.value n t'
  | n, _, .mk (items := items) hl hi, .mk name a items', hs => by
    have hl' : s.forest.live n = true := hl
    unfold Same at hs
    obtain ⟨h1, h2, h3⟩ := hs
    subst h1
    refine .mk (fun k => ?_) (holds_items ha T hi rfl (T.kids n hl') h3)
    refine trans_given ?_ (fun v hv => (given_good (ha n) hv).2.2)
    rw [h2.1 k]
    exact getValue_given (ha n) k
theorem holds_items (ha : ∀ n, Fit (x.attrs n) (s.attrs n)) (T : Tidy y x.pi s.forest) :
    ∀ {l' : List Child} {items : Items}, IsItems (sf s.forest) x l' items → ∀ {l : List Child} {b : Before}, l' = l.map sc →
      TidyKids x.pi b l → ∀ {items' : Items}, SameItems items items' →
      HoldsItems s.forest x.pi s.value l items'
  | _, _, .nil, l, _, e, _, items', hs => by
    cases l with
    | cons c l => cases e
    | nil =>
      cases items' <;> simp [SameItems] at hs
      exact .nil
  | _, _, .node htr hi, l, b, e, hk, items', hs => by
    cases l with
    | nil => cases e
    | cons c l =>
      simp only [List.map_cons, List.cons.injEq] at e
      have hc : c = .node _ := sc_eq_node.1 e.1.symm
      subst hc
      unfold TidyKids at hk
      cases items' with
      | nil => simp [SameItems] at hs
      | leaf lf i => simp [SameItems] at hs
      | node t' i =>
        unfold SameItems at hs
        exact .node (holds_tree ha T htr hs.1) (holds_items ha T hi e.2 hk hs.2)
  | _, _, .text (k := k) (s := s) hi, l, b, e, hk, items', hs => by
    cases items' with
    | nil => simp [SameItems] at hs
    | node t' i => simp [SameItems] at hs
    | leaf lf i =>
      unfold SameItems at hs
      obtain ⟨hlf, hs⟩ := hs
      cases l with
      | nil => cases e
      | cons c l =>
        simp only [List.map_cons, List.cons.injEq] at e
        cases c with
        | node m => simp at e
        | text k' s' =>
          cases k' with
          | content =>
            cases k <;> simp [sc] at e
            obtain ⟨rfl, e⟩ := e
            unfold TidyKids at hk
            obtain ⟨h1, h2, h3, h4⟩ := hk
            simp only [Extra.leaf, SameLeaf] at hlf
            subst hlf
            exact .content (readAs_encode h2) (holds_items ha T hi e h4 hs)
          | cdata =>
            cases k <;> simp [sc] at e
            obtain ⟨rfl, e⟩ := e
            unfold TidyKids at hk
            obtain ⟨h1, h2, h3⟩ := hk
            simp only [Extra.leaf, SameLeaf] at hlf
            subst hlf
            exact .cdata (readAs_encode h1) (holds_items ha T hi e h3 hs)
          | comment =>
            cases k <;> simp [sc] at e
            obtain ⟨rfl, e⟩ := e
            unfold TidyKids at hk
            obtain ⟨h1, h2, h3⟩ := hk
            simp only [Extra.leaf, SameLeaf] at hlf
            subst hlf
            exact .comment (holds_items ha T hi e h3 hs)
          | pi =>
            cases k <;> simp [sc] at e
            obtain ⟨rfl, e⟩ := e
            unfold TidyKids at hk
            obtain ⟨h1, h2⟩ := hk
            simp only [Extra.leaf, SameLeaf] at hlf
            subst hlf
            exact .pi (holds_items ha T hi e h2 hs)
end

end Axl.Work
