/-
Programs that parse documents and read them (`Spec.reads`) are careful by themselves.
-/
import Verif.Proofs.PyStep

namespace Axl.Py
open Forest

/-- What a program that only reads holds. -/
structure RInv (w : World) : Prop where
  inv : Inv w
  docTrue : ∀ o d f, w.body o = some (.doc d f) → f = true
  node : ∀ o n f q, w.body o = some (.node n f q) →
    f = false ∧ ∃ i p d t, n = some i ∧ q = some p ∧ w.body p = some (.doc d true) ∧ w.mem.root d = some t ∧ i ∈ t.ids
  noCursor : ∀ o n f, w.body o ≠ some (.cursor n f)

/-- What a program that only reads may find later: what was there, and new things. -/
structure Later (w w' : World) : Prop where
  objs : w.objs.length ≤ w'.objs.length
  docs : w.mem.docs.length ≤ w'.mem.docs.length
  body : ∀ o y, o < w.objs.length → w'.body o = some y → w.body o = some y
  root : ∀ d t, d < w.mem.docs.length → w'.mem.root d = some t → w.mem.root d = some t

theorem Later.refl (w : World) : Later w w := ⟨Nat.le_refl _, Nat.le_refl _, fun _ _ _ h => h, fun _ _ _ h => h⟩

theorem Later.trans {a b c : World} (h : Later a b) (h' : Later b c) : Later a c :=
  ⟨Nat.le_trans h.objs h'.objs, Nat.le_trans h.docs h'.docs,
    fun o y ho hy => h.body o y ho (h'.body o y (Nat.lt_of_lt_of_le ho h.objs) hy),
    fun d t hd ht => h.root d t hd (h'.root d t (Nat.lt_of_lt_of_le hd h.docs) ht)⟩

namespace World

/-- Things only go away. -/
structure Less (w w' : World) : Prop where
  objs : w'.objs.length = w.objs.length
  docs : w'.mem.docs.length = w.mem.docs.length
  body : ∀ o y, w'.body o = some y → w.body o = some y
  root : ∀ d t, w'.mem.root d = some t → w.mem.root d = some t

theorem Less.refl (w : World) : Less w w := ⟨rfl, rfl, fun _ _ h => h, fun _ _ h => h⟩

theorem Less.trans {a b c : World} (h : Less a b) (h' : Less b c) : Less a c :=
  ⟨h'.objs.trans h.objs, h'.docs.trans h.docs, fun o y hy => h.body o y (h'.body o y hy), fun d t ht => h.root d t (h'.root d t ht)⟩

theorem less_put_none {w : World} {o : Nat} : Less w (w.put o none) := by
  refine ⟨by simp [put], rfl, ?_, fun _ _ h => h⟩
  intro p y hy
  simp only [body, obj, put, List.getElem?_set] at hy ⊢
  split at hy
  · split at hy <;> simp at hy
  · exact hy

theorem less_put {w : World} {o : Nat} {x : Obj} {r : Nat} (hx : w.obj o = some x) : Less w (w.put o (some { x with rc := r })) := by
  refine ⟨by simp [put], rfl, ?_, fun _ _ h => h⟩
  intro p y hy
  rw [body_put hx] at hy
  rcases upd_some hy with ⟨e, h⟩ | ⟨_, h⟩
  · subst e
    rw [body_obj hx]
    simpa using h
  · exact h

theorem less_docDealloc {w w' : World} {d : Nat} {f : Bool} (h : w.docDealloc d f = some w') : Less w w' := by
  simp only [docDealloc] at h
  split at h
  · simp only [Mem.docFree, Option.bind_eq_bind] at h
    cases hr : w.mem.root d with
    | none => simp [hr] at h
    | some t =>
      simp [hr] at h
      subst h
      refine ⟨rfl, by simp, fun _ _ h => h, ?_⟩
      intro e t' he
      have := Mem.root_set (m := w.mem) (d := d) (f := none) (by rw [hr]; rfl) e
      rw [this] at he
      split at he
      · cases he
      · exact he
  · cases h; exact Less.refl _

theorem less_decrefDoc {w w' : World} {o : Nat} (h : w.decrefDoc o = some w') : Less w w' := by
  simp only [decrefDoc, Option.bind_eq_bind] at h
  cases hx : w.obj o with
  | none => simp [hx] at h
  | some x =>
    simp only [hx, Option.bind_some] at h
    split at h
    · split at h
      · rename_i d f _ _
        obtain ⟨w1, h1, h2⟩ := Option.bind_eq_some_iff.1 h
        cases h2
        exact (less_docDealloc h1).trans less_put_none
      · cases h
        exact less_put hx
    · cases h

theorem less_nodeFinish {w w' : World} {n : Option Nat} {f : Bool} (h : w.nodeFinish n f = some w') : Less w w' := by
  simp only [nodeFinish] at h
  split at h
  · split at h
    · cases h; exact Less.refl _
    · rename_i n
      simp only [Option.bind_eq_bind] at h
      obtain ⟨d, _, h⟩ := Option.bind_eq_some_iff.1 h
      split at h
      · cases h; exact Less.refl _
      · simp only [Mem.nodeFree] at h
        split at h
        · cases h
          exact ⟨rfl, rfl, fun _ _ h => h, fun _ _ h => h⟩
        · cases h
  · cases h; exact Less.refl _

theorem less_decref {w w' : World} {o : Nat} (h : w.decref o = some w') : Less w w' := by
  simp only [decref, Option.bind_eq_bind] at h
  cases hx : w.obj o with
  | none => simp [hx] at h
  | some x =>
    simp only [hx, Option.bind_some] at h
    split at h
    · split at h
      · exact less_decrefDoc h
      · obtain ⟨w1, h1, h2⟩ := Option.bind_eq_some_iff.1 h
        cases h2
        refine Less.trans ?_ less_put_none
        simp only [nodeDealloc, Option.bind_eq_bind] at h1
        obtain ⟨w2, h3, h4⟩ := Option.bind_eq_some_iff.1 h1
        refine (less_nodeFinish h3).trans ?_
        split at h4
        · cases h4; exact Less.refl _
        · exact less_decrefDoc h4
      · cases h
        exact less_put_none
    · cases h
      exact less_put hx

theorem less_drop {w w' : World} {o : Nat} {v : Value} (h : w.step (.drop o) = some (w', v)) : Less w w' := by
  simp only [step, Option.bind_eq_bind] at h
  obtain ⟨w1, h1, h2⟩ := Option.bind_eq_some_iff.1 h
  cases h2
  have := less_decref h1
  exact ⟨this.objs, this.docs, this.body, this.root⟩

theorem two_links {w : World} {o p q : Nat} {x y : Body} (ho : w.body o = some x) (hx : x.link = some q)
    (hp : w.body p = some y) (hy : y.link = some q) (ne : o ≠ p) : 2 ≤ w.links q := by
  obtain ⟨x', hx', rfl⟩ := obj_of_body ho
  have hl := links_put hx' none q
  have : 0 < (w.put o none).links q := by
    refine links_pos (o := p) (x := y) ?_ hy
    rw [body_put hx', upd_ne _ _ (Ne.symm ne)]
    exact hp
  simp [hx] at hl
  omega

end World

theorem Less.later {w w' : World} (h : World.Less w w') : Later w w' :=
  ⟨Nat.le_of_eq h.objs.symm, Nat.le_of_eq h.docs.symm, fun o y _ => h.body o y, fun d t _ => h.root d t⟩

/-- Who is about a document or about a node of it. -/
theorem about_doc {w : World} (h : RInv w) {q d p : Nat} {t : Forest} (hq : w.body q = some (.doc d true)) (ht : w.mem.root d = some t)
    (hp : Spec.about w [d] t.ids p = true) : p = q ∨ ∃ x, w.body p = some x ∧ x.link = some q := by
  simp only [Spec.about, spec_body] at hp
  split at hp
  · rename_i e f he
    have hed : e = d := by simpa using hp
    subst hed
    have := h.docTrue p e f he
    subst this
    exact .inl (h.inv.own.docOnce p q e he hq)
  · rename_i n f q' hb
    have hn : n ∈ t.ids := by simpa using hp
    obtain ⟨_, i, p', d', t', e1, e2, e3, e4, e5⟩ := h.node p _ _ _ hb
    cases e1
    refine .inr ⟨_, hb, ?_⟩
    -- the documents are the same: a node is in one document
    have hdd : d' = d := by
      refine Classical.byContradiction fun ne => ?_
      have hperm := Mem.perm_set ht
      have hnd := hperm.nodup_iff.1 h.inv.mem.nodup
      have hr : Mem.root { w.mem with docs := w.mem.docs.set d none } d' = some t' := by
        rw [Mem.root_set (by rw [ht]; rfl), if_neg ne]; exact e4
      have hm : n ∈ Mem.ids { w.mem with docs := w.mem.docs.set d none } := Mem.mem_ids.2 (.inr ⟨d', t', hr, e5⟩)
      exact (List.nodup_append.1 hnd).2.2 n hn n hm rfl
    subst hdd
    have := h.inv.own.docOnce p' q d' e3 hq
    subst this
    exact e2
  · rename_i n f hb
    exact absurd hb (h.noCursor p _ _)
  · cases hp

theorem about_nil {w : World} {p : Nat} : Spec.about w [] [] p = false := by
  simp only [Spec.about]
  split <;> simp

/-- A program that only reads drops its references with care. -/
theorem reading_careful {w : World} (h : RInv w) {o : Nat} (ho : o ∈ w.vars) : Spec.careful w (.drop o) = true := by
  obtain ⟨x, hx⟩ := h.inv.counted.held ho
  have hpos := h.inv.counted.pos o x hx
  have hcount := h.inv.counted.count o
  rw [World.rcOf_obj hx] at hcount
  have hvar := List.count_pos_iff.2 ho
  have hb := World.body_obj hx
  simp only [Spec.careful, Spec.noneLeft, List.all_eq_true, List.mem_range, Bool.or_eq_true, Bool.not_eq_true', decide_eq_true_iff]
  intro p hp
  by_cases h1 : x.rc = 1
  · obtain ⟨rc, b⟩ := x
    simp only at h1
    subst h1
    simp only at hb hcount
    cases b with
    | cursor n f => exact absurd hb (h.noCursor o _ _)
    | doc d f =>
      have := h.docTrue o d f hb
      subst this
      obtain ⟨t, ht⟩ := Option.isSome_iff_exists.1 ((h.inv.own.alive o _ hb).2 d rfl)
      have hg : Spec.gone w o = [o] := by simp [Spec.gone, hx]
      have hd : (Spec.gone w o).flatMap (Spec.docsOf w) = [d] := by simp [hg, Spec.docsOf, spec_body, hb]
      have hn : (Spec.gone w o).flatMap (Spec.nodesOf w) = t.ids := by simp [hg, Spec.nodesOf, spec_body, hb, Spec.docNodes, ht]
      rw [hd, hn, hg]
      cases hab : Spec.about w [d] t.ids p with
      | false => exact .inr rfl
      | true =>
        left
        rcases about_doc h hb ht hab with e | ⟨y, hy, hl⟩
        · simp [e]
        · have := World.links_pos hy hl
          omega
    | node n f q =>
      obtain ⟨rfl, i, q', d, t, rfl, rfl, e3, e4, e5⟩ := h.node o _ _ _ hb
      obtain ⟨y, hy, hyb⟩ := World.obj_of_body e3
      by_cases hrc : y.rc = 1
      · have hg : Spec.gone w o = [o, q'] := by simp [Spec.gone, hx, hy, hrc]
        have hd : (Spec.gone w o).flatMap (Spec.docsOf w) = [d] := by simp [hg, Spec.docsOf, spec_body, hb, e3]
        have hn : (Spec.gone w o).flatMap (Spec.nodesOf w) = t.ids := by
          simp [hg, Spec.nodesOf, spec_body, hb, e3, Spec.docNodes, e4]
        rw [hd, hn, hg]
        cases hab : Spec.about w [d] t.ids p with
        | false => exact .inr rfl
        | true =>
          left
          rcases about_doc h e3 e4 hab with e | ⟨z, hz, hl⟩
          · simp [e]
          · by_cases e : o = p
            · simp [e]
            · have := World.two_links hb rfl hz hl e
              have hc2 := h.inv.counted.count q'
              rw [World.rcOf_obj hy, hrc] at hc2
              omega
      · have hg : Spec.gone w o = [o] := by simp [Spec.gone, hx, hy, hrc]
        have hd : (Spec.gone w o).flatMap (Spec.docsOf w) = [] := by simp [hg, Spec.docsOf, spec_body, hb]
        have hn : (Spec.gone w o).flatMap (Spec.nodesOf w) = [] := by simp [hg, Spec.nodesOf, spec_body, hb]
        rw [hd, hn]
        exact .inr about_nil
  · have hg : Spec.gone w o = [] := by
      obtain ⟨rc, b⟩ := x
      simp only at h1
      simp only [Spec.gone, hx]
      split
      · rename_i e; cases e; exact absurd rfl h1
      · rename_i e; cases e; exact absurd rfl h1
      · rfl
    rw [hg]
    exact .inr about_nil

/-- A node of a document is given. -/
theorem give_reads {w w' : World} {v : Value} (h : RInv w) {n : Option Nat} {q d : Nat} {t : Forest}
    (hd : w.body q = some (.doc d true)) (ht : w.mem.root d = some t) (hn : ∀ i, n = some i → i ∈ t.ids)
    (hs : w.give n (some q) = some (w', v)) : RInv w' ∧ Later w w' := by
  obtain ⟨w1, v1, h1, h2, h3, h4, h5, _⟩ := give_ok h.inv (n := n) (q := some q)
    (fun i hi => Mem.mem_ids.2 (.inr ⟨d, t, ht, hn i hi⟩)) (fun p hp => by cases hp; exact ⟨d, true, hd⟩)
  rw [h1] at hs
  cases hs
  cases n with
  | none =>
    simp only at h4
    refine ⟨⟨h2, ?_, ?_, ?_⟩, ⟨by omega, by rw [h3]; exact Nat.le_refl _, ?_, ?_⟩⟩
    · rw [h4]; exact h.docTrue
    · rw [h4, h3]; exact h.node
    · rw [h4]; exact h.noCursor
    · rw [h4]; exact fun _ _ _ h => h
    · rw [h3]; exact fun _ _ _ h => h
  | some i =>
    simp only at h4
    have hq : q ≠ w.objs.length := fun e => by rw [e, World.body_length] at hd; cases hd
    have keep : ∀ p d', w.body p = some (.doc d' true) → w'.body p = some (.doc d' true) := by
      intro p d' hp
      rw [h4, upd_ne]
      · exact hp
      · intro e; rw [e, World.body_length] at hp; cases hp
    refine ⟨⟨h2, ?_, ?_, ?_⟩, ⟨by omega, by rw [h3]; exact Nat.le_refl _, ?_, ?_⟩⟩
    · intro o e f ho
      rw [h4] at ho
      rcases upd_some ho with ⟨_, e⟩ | ⟨_, e⟩
      · cases e
      · exact h.docTrue o _ _ e
    · intro o n' f' q' ho
      rw [h4] at ho
      rw [h3]
      rcases upd_some ho with ⟨_, e⟩ | ⟨_, e⟩
      · cases e
        exact ⟨rfl, i, q, d, t, rfl, rfl, keep q d hd, ht, hn i rfl⟩
      · obtain ⟨a, i', p, d', t', e1, e2, e3, e4, e5⟩ := h.node o _ _ _ e
        exact ⟨a, i', p, d', t', e1, e2, keep p d' e3, e4, e5⟩
    · intro o n' f' ho
      rw [h4] at ho
      rcases upd_some ho with ⟨_, e⟩ | ⟨_, e⟩
      · cases e
      · exact h.noCursor o _ _ e
    · intro o y hlt ho
      rw [h4] at ho
      rcases upd_some ho with ⟨e, _⟩ | ⟨_, e⟩
      · omega
      · exact e
    · rw [h3]; exact fun _ _ _ h => h

/-- A document is new. -/
theorem newDoc_reads {w w' : World} (h : RInv w) (hi : Inv w') {l : List (Option Forest)} (hd : w'.mem.docs = w.mem.docs ++ l)
    (hb : w'.body = upd w.body w.objs.length (some (.doc w.mem.docs.length true))) (ho : w'.objs.length = w.objs.length + 1) :
    RInv w' ∧ Later w w' := by
  have hroot : ∀ d, d < w.mem.docs.length → w'.mem.root d = w.mem.root d := by
    intro d hlt
    simp [Mem.root, hd, List.getElem?_append_left hlt]
  have hlt : ∀ {d : Nat} {t : Forest}, w.mem.root d = some t → d < w.mem.docs.length := fun ht => Mem.root_lt ht
  refine ⟨⟨hi, ?_, ?_, ?_⟩, ⟨by omega, by simp [hd], ?_, ?_⟩⟩
  · intro o e f ho'
    rw [hb] at ho'
    rcases upd_some ho' with ⟨_, e⟩ | ⟨_, e⟩
    · cases e; rfl
    · exact h.docTrue o _ _ e
  · intro o n' f' q' ho'
    rw [hb] at ho'
    rcases upd_some ho' with ⟨_, e⟩ | ⟨_, e⟩
    · cases e
    · obtain ⟨a, i', p, d', t', e1, e2, e3, e4, e5⟩ := h.node o _ _ _ e
      refine ⟨a, i', p, d', t', e1, e2, ?_, ?_, e5⟩
      · rw [hb, upd_ne]
        · exact e3
        · intro e; rw [e, World.body_length] at e3; cases e3
      · rw [hroot d' (hlt e4)]; exact e4
  · intro o n' f' ho'
    rw [hb] at ho'
    rcases upd_some ho' with ⟨_, e⟩ | ⟨_, e⟩
    · cases e
    · exact h.noCursor o _ _ e
  · intro o y hlt ho'
    rw [hb] at ho'
    rcases upd_some ho' with ⟨e, _⟩ | ⟨_, e⟩
    · omega
    · exact e
  · intro d t hlt ht
    rw [← hroot d hlt]; exact ht

/-- A node that an object holds is looked up in the document. -/
theorem RInv.look {w : World} (h : RInv w) {α : Type} {g : Forest → Option α} {n : Nat} (hg : ∀ f, (g f).isSome = decide (n ∈ f.ids))
    {d : Nat} {t : Forest} (ht : w.mem.root d = some t) (hn : n ∈ t.ids) : w.mem.look g = g t :=
  h.inv.mem.look hg (Mem.mem_forests.2 (.inr ⟨d, ht⟩)) hn

/-- Every legal call that reads has defined behaviour. -/
theorem read_ok {w : World} (h : RInv w) {op : Op} (hl : Spec.legal w op = true) (hr : Spec.reads op = true) :
    Spec.careful w op = true ∧ ∃ w' v, w.step op = some (w', v) ∧ RInv w' ∧ Later w w' := by
  have hl' := hl
  simp only [Spec.legal, Bool.and_eq_true] at hl'
  obtain ⟨hu, htyped⟩ := hl'
  cases op with
  | newNode s => cases hr
  | getDoc o => cases hr
  | cursor o => cases hr
  | cursorRead o => cases hr
  | setRoot o c => cases hr
  | setChild p c => cases hr
  | setChildAfter p c => cases hr
  | remove o => cases hr
  | parse s kids =>
    obtain ⟨w', h1, h2, h3, h4, h5, h6, h7⟩ := parse_ok h.inv s kids
    have := newDoc_reads h h2 (by rw [h3, List.append_assoc]) h5 h6
    exact ⟨rfl, w', _, h1, this.1, this.2⟩
  | newDoc =>
    obtain ⟨w', h1, h2, h3, h4, h5, h6, h7⟩ := newDoc_ok h.inv
    have := newDoc_reads h h2 h3 h5 h6
    exact ⟨rfl, w', _, h1, this.1, this.2⟩
  | root o =>
    refine ⟨rfl, ?_⟩
    obtain ⟨w', v, h1, _⟩ := step_ok h.inv hl rfl
    refine ⟨w', v, h1, ?_⟩
    obtain ⟨d, hd⟩ := Option.isSome_iff_exists.1 htyped
    obtain ⟨f, hf⟩ := World.asDoc_eq.1 hd
    have := h.docTrue _ _ _ hf
    subst this
    obtain ⟨t, htr⟩ := Option.isSome_iff_exists.1 ((h.inv.own.alive o _ hf).2 d rfl)
    simp only [World.step, hd, htr, Option.bind_eq_bind, Option.bind_some] at h1
    refine give_reads h hf htr (fun i hi => ?_) h1
    obtain ⟨x, hx, rfl⟩ := Option.map_eq_some_iff.1 hi
    exact tops_ids (List.mem_of_mem_head? hx)
  | get o path =>
    refine ⟨rfl, ?_⟩
    obtain ⟨w', v, h1, _⟩ := step_ok h.inv hl rfl
    refine ⟨w', v, h1, ?_⟩
    obtain ⟨d, hd⟩ := Option.isSome_iff_exists.1 htyped
    obtain ⟨f, hf⟩ := World.asDoc_eq.1 hd
    have := h.docTrue _ _ _ hf
    subst this
    obtain ⟨t, htr⟩ := Option.isSome_iff_exists.1 ((h.inv.own.alive o _ hf).2 d rfl)
    simp only [World.step, hd, htr, Option.bind_eq_bind, Option.bind_some] at h1
    exact give_reads h hf htr (fun i hi => walk_ids hi) h1
  | nav o k =>
    refine ⟨rfl, ?_⟩
    obtain ⟨w', v, h1, _⟩ := step_ok h.inv hl rfl
    refine ⟨w', v, h1, ?_⟩
    obtain ⟨⟨n, f, q⟩, hn⟩ := Option.isSome_iff_exists.1 htyped
    obtain ⟨rfl, i, p, d, t, rfl, rfl, e3, e4, e5⟩ := h.node _ _ _ _ (World.asNode_eq.1 hn)
    simp only [World.step, hn, Option.bind_eq_bind, Option.bind_some] at h1
    rw [h.look (g := fun f => k.go f i) (fun f => go_isSome f i k) e4 e5] at h1
    obtain ⟨r, hr', h1⟩ := Option.bind_eq_some_iff.1 h1
    exact give_reads h e3 e4 (fun j hj => go_ids (by rw [hr', hj])) h1
  | name o =>
    refine ⟨rfl, ?_⟩
    obtain ⟨w', v, h1, _⟩ := step_ok h.inv hl rfl
    refine ⟨w', v, h1, ?_⟩
    obtain ⟨⟨n, f, q⟩, hn⟩ := Option.isSome_iff_exists.1 htyped
    simp only [World.step, hn, Option.bind_eq_bind, Option.bind_some] at h1
    split at h1
    · cases h1; exact ⟨h, Later.refl w⟩
    · obtain ⟨s, _, h1⟩ := Option.bind_eq_some_iff.1 h1
      cases h1; exact ⟨h, Later.refl w⟩
  | dup o =>
    refine ⟨rfl, ?_⟩
    obtain ⟨w', h1, h2, h3, h4, h5, h6⟩ := dup_ok h.inv (o := o) (by simpa [Spec.uses] using hu)
    refine ⟨w', _, h1, ⟨h2, ?_, ?_, ?_⟩, ⟨by omega, by rw [h3]; exact Nat.le_refl _, ?_, ?_⟩⟩
    · rw [h4]; exact h.docTrue
    · rw [h4, h3]; exact h.node
    · rw [h4]; exact h.noCursor
    · rw [h4]; exact fun _ _ _ h => h
    · rw [h3]; exact fun _ _ _ h => h
  | drop o =>
    have ho : o ∈ w.vars := by simpa [Spec.uses] using hu
    have hc := reading_careful h ho
    refine ⟨hc, ?_⟩
    obtain ⟨w', h1, h2⟩ := drop_ok h.inv ho hc
    have hless := World.less_drop h1
    refine ⟨w', _, h1, ⟨h2, ?_, ?_, ?_⟩, Less.later hless⟩
    · exact fun o d f ho => h.docTrue o d f (hless.body _ _ ho)
    · intro p n f q hp
      obtain ⟨a, i, p', d, t, e1, e2, e3, e4, e5⟩ := h.node p n f q (hless.body _ _ hp)
      subst e1 e2
      obtain ⟨d', f', hd'⟩ := h2.counted.link p _ p' hp rfl
      have e6 := hless.body _ _ hd'
      rw [e3] at e6
      cases e6
      obtain ⟨t', ht'⟩ := Option.isSome_iff_exists.1 ((h2.own.alive p' _ hd').2 d rfl)
      have e7 := hless.root _ _ ht'
      rw [e4] at e7
      cases e7
      exact ⟨a, i, p', d, t, rfl, rfl, hd', ht', e5⟩
    · exact fun o n f ho => h.noCursor o n f (hless.body _ _ ho)

theorem start_reads : RInv World.start :=
  ⟨start_inv, by simp [World.start, World.body, World.obj], by simp [World.start, World.body, World.obj],
    by simp [World.start, World.body, World.obj]⟩

/-- A program that only reads. -/
theorem reads_ok : ∀ {ops : List Op} {w : World}, RInv w → Spec.Legal w ops = true → ops.all Spec.reads = true →
    ∃ w', w.run ops = some w' ∧ RInv w' ∧ Later w w'
  | [], w, h, _, _ => ⟨w, rfl, h, Later.refl w⟩
  | op :: ops, w, h, hl, hr => by
    simp only [Spec.Legal, Bool.and_eq_true] at hl
    simp only [List.all_cons, Bool.and_eq_true] at hr
    obtain ⟨_, w1, v, h1, h2, h3⟩ := read_ok h hl.1 hr.1
    have hrest := hl.2
    rw [h1] at hrest
    obtain ⟨w', h4, h5, h6⟩ := reads_ok h2 hrest hr.2
    exact ⟨w', by simp [World.run, h1, h4], h5, h3.trans h6⟩

/-- The name that is read later is the same. -/
theorem name_later {w w' : World} (h : RInv w) (h' : RInv w') (hl : Later w w') {o : Nat} {s : List Char}
    (hs : w.step (.name o) = some (w, .text s)) (ho : o ∈ w'.vars) : w'.step (.name o) = some (w', .text s) := by
  simp only [World.step, Option.bind_eq_bind] at hs
  obtain ⟨⟨n, f, q⟩, hn, hs⟩ := Option.bind_eq_some_iff.1 hs
  have hb := World.asNode_eq.1 hn
  obtain ⟨rfl, i, p, d, t, rfl, rfl, e3, e4, e5⟩ := h.node _ _ _ _ hb
  simp only at hs
  obtain ⟨s', hs', hs⟩ := Option.bind_eq_some_iff.1 hs
  cases hs
  rw [h.look (nameOf_isSome i) e4 e5] at hs'
  obtain ⟨x, hx, _⟩ := World.obj_of_body hb
  obtain ⟨x', hx'⟩ := h'.inv.counted.held ho
  have hb' := hl.body o _ (World.obj_lt hx) (World.body_obj hx')
  rw [hb] at hb'
  have hbo : w'.body o = some (.node (some i) false (some p)) := by rw [World.body_obj hx', hb']
  obtain ⟨_, i', p', d', t', k1, k2, k3, k4, k5⟩ := h'.node _ _ _ _ hbo
  cases k1
  cases k2
  obtain ⟨y, hy, _⟩ := World.obj_of_body e3
  have k6 := hl.body p _ (World.obj_lt hy) k3
  rw [e3] at k6
  cases k6
  have k7 := hl.root d _ (Mem.root_lt e4) k4
  rw [e4] at k7
  cases k7
  simp only [World.step, World.asNode_eq.2 hbo, Option.bind_eq_bind, Option.bind_some, h'.look (nameOf_isSome i) k4 k5, hs']

end Axl.Py
