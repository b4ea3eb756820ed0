/-
Every call of a careful program keeps everything in order (`Inv`).
-/
import Verif.Proofs.PyPlace

namespace Axl.Py
open Forest
namespace World

theorem asNode_eq {w : World} {o : Nat} {n : Option Nat} {f : Bool} {q : Option Nat} :
    w.asNode o = some (n, f, q) ↔ w.body o = some (.node n f q) := by
  simp only [asNode, body]
  cases h : w.obj o with
  | none => simp
  | some x =>
    obtain ⟨rc, b⟩ := x
    cases b <;> simp

theorem asDoc_eq {w : World} {o d : Nat} : w.asDoc o = some d ↔ ∃ f, w.body o = some (.doc d f) := by
  simp only [asDoc, body]
  cases h : w.obj o with
  | none => simp
  | some x =>
    obtain ⟨rc, b⟩ := x
    cases b <;> simp

theorem body_length (w : World) : w.body w.objs.length = none := by
  simp [body, obj_length]

/-- `py_axl_doc_create`: the document that came with the new object is freed at once. -/
theorem docCreate_eq (w : World) (d : Nat) (f : Bool) :
    w.docCreate d f =
      some ({ (w.new (.doc d f)).1 with mem := { w.mem with docs := w.mem.docs ++ [none] } }, w.objs.length) := by
  simp [docCreate, docNew, Mem.docCreate, new, obj, setBody, Mem.docFree, Mem.root, put, List.set_append]

end World

theorem Inv.setMem {w : World} (h : Inv w) {m : Mem} (hl : m.loose = w.mem.loose) (hr : ∀ d, m.root d = w.mem.root d)
    (hi : m.ids = w.mem.ids) (hn : m.nextNode = w.mem.nextNode) : Inv { w with mem := m } :=
  ⟨h.mem.congr hl hr hi hn, h.own.congr hl hr, h.counted.congr rfl rfl⟩

theorem root_append_none {m : Mem} (d : Nat) : Mem.root { m with docs := m.docs ++ [none] } d = m.root d := by
  have := Mem.root_append (m := m) (f := none) (k := m.nextNode) d
  refine this.trans ?_
  split
  · rename_i e
    subst e
    simp [Mem.root]
  · rfl

/-- A new object that frees nothing and holds no other. -/
theorem Inv.new {w : World} (h : Inv w) {b : Body} (hl : b.link = none) (ho : b.owner = false) (ha : b.Alive w.mem) :
    Inv (w.new b).1 := by
  refine ⟨h.mem, ?_, h.counted.new hl⟩
  rw [World.body_new]
  refine h.own.set (fun y hy => ?_) ha ho
  rw [World.body_length] at hy
  cases hy

/-- `None`, or an object for a node of a document. -/
theorem give_ok {w : World} (h : Inv w) {n : Option Nat} {q : Option Nat} (hn : ∀ i, n = some i → i ∈ w.mem.ids)
    (hq : ∀ p, q = some p → ∃ d f, w.body p = some (.doc d f)) :
    ∃ w' v, w.give n q = some (w', v) ∧ Inv w' ∧ w'.mem = w.mem ∧
      w'.body = (match n with
        | none => w.body
        | some i => upd w.body w.objs.length (some (.node (some i) false q))) ∧
      w'.objs.length = w.objs.length + (if n.isSome then 1 else 0) ∧
      w'.vars = (match n with
        | none => w.vars
        | some _ => w.objs.length :: w.vars) ∧
      v = (match n with
        | none => .nothing
        | some _ => .object w.objs.length) := by
  cases n with
  | none => exact ⟨w, .nothing, rfl, h, rfl, rfl, rfl, rfl, rfl⟩
  | some i =>
    have ha : (Body.node (some i) false q).Alive w.mem :=
      ⟨fun n hn' => hn n (by simpa [Body.nodeOf] using hn'), nofun⟩
    cases q with
    | none =>
      exact ⟨_, _, rfl, h.new rfl rfl ha, rfl, World.body_new w _, by simp [World.new], rfl, rfl⟩
    | some q =>
      obtain ⟨d, f, hd⟩ := hq q rfl
      obtain ⟨x, hx, _⟩ := World.obj_of_body hd
      have hx1 : (w.new (.node (some i) false (some q))).1.obj q = some x := by
        rw [World.obj_new, if_neg]
        · exact hx
        · exact Nat.ne_of_lt (World.obj_lt hx)
      have hinc : (w.new (.node (some i) false (some q))).1.incref q =
          some ((w.new (.node (some i) false (some q))).1.put q (some { x with rc := x.rc + 1 })) := by
        simp [World.incref, hx1]
      obtain ⟨c1, c2, c3⟩ := h.counted.newLinked rfl hd hinc
      have hgive : w.give (some i) (some q) =
          some ((w.new (.node (some i) false (some q))).1.put q (some { x with rc := x.rc + 1 }), .object w.objs.length) := by
        simp only [World.give, World.nodeCreate]
        have : (w.new (.node (some i) false (some q))).2 = w.objs.length := rfl
        simp [hinc, this]
      refine ⟨_, _, hgive, ⟨?_, ?_, c1⟩, c3, c2, ?_, rfl, rfl⟩
      · rw [c3]; exact h.mem
      · rw [c2, c3]
        refine h.own.set (fun y hy => ?_) ha rfl
        rw [World.body_length] at hy
        cases hy
      · simp [World.put, World.new]

/-- A document is parsed. -/
theorem parse_ok {w : World} (h : Inv w) (s : List Char) (kids : Shape) :
    ∃ w', w.step (.parse s kids) = some (w', .object w.objs.length) ∧ Inv w' ∧
      w'.mem.docs = w.mem.docs ++ [some ((Shape.node s kids .nil).build w.mem.docs.length w.mem.nextNode).1] ++ [none] ∧
      w'.mem.loose = w.mem.loose ∧
      w'.body = upd w.body w.objs.length (some (.doc w.mem.docs.length true)) ∧
      w'.objs.length = w.objs.length + 1 ∧ w'.vars = w.objs.length :: w.vars := by
  obtain ⟨h1, h2, h3, h4⟩ := build_ids w.mem.docs.length (.node s kids .nil) w.mem.nextNode
  have hm1 := h.mem.newDoc h1 h2 (fun n hn => (h3 n).1 hn) h4
  have ho1 := h.own.newDoc (k := ((Shape.node s kids .nil).build w.mem.docs.length w.mem.nextNode).2)
    (f := ((Shape.node s kids .nil).build w.mem.docs.length w.mem.nextNode).1) (World.body_length w)
  have hc1 := h.counted.new (b := .doc w.mem.docs.length true) rfl
  simp only [World.step, Mem.parse, World.docCreate_eq, Option.bind_eq_bind, Option.bind_some]
  refine ⟨_, rfl, ⟨?_, ?_, ?_⟩, rfl, rfl, ?_, ?_, rfl⟩
  · exact hm1.congr rfl (fun d => root_append_none (m := (w.mem.parse s kids).1) d) (Mem.ids_append_none (m := (w.mem.parse s kids).1)) rfl
  · have := World.body_new w (.doc w.mem.docs.length true)
    rw [← this] at ho1
    exact ho1.congr rfl fun d => root_append_none (m := (w.mem.parse s kids).1) d
  · exact hc1.congr rfl rfl
  · exact World.body_new w (.doc w.mem.docs.length true)
  · simp [World.new]

/-- `axl.Doc ()`. -/
theorem newDoc_ok {w : World} (h : Inv w) :
    ∃ w', w.step .newDoc = some (w', .object w.objs.length) ∧ Inv w' ∧ w'.mem.docs = w.mem.docs ++ [some .nil] ∧
      w'.mem.loose = w.mem.loose ∧
      w'.body = upd w.body w.objs.length (some (.doc w.mem.docs.length true)) ∧
      w'.objs.length = w.objs.length + 1 ∧ w'.vars = w.objs.length :: w.vars := by
  have hm1 := h.mem.newDoc (f := .nil) (k := w.mem.nextNode) (Nat.le_refl _) (by simp [Forest.ids]) (by simp [Forest.ids]) trivial
  have ho1 := h.own.newDoc (k := w.mem.nextNode) (f := .nil) (World.body_length w)
  have hc1 := h.counted.new (b := .doc w.mem.docs.length true) rfl
  have hb := World.body_new w (.doc w.mem.docs.length true)
  refine ⟨_, rfl, ⟨hm1, ?_, hc1.congr rfl rfl⟩, rfl, rfl, hb, by simp [World.docNew, World.new], rfl⟩
  rw [← hb] at ho1
  exact ho1

/-- One more variable. -/
theorem dup_ok {w : World} (h : Inv w) {o : Nat} (ho : o ∈ w.vars) :
    ∃ w', w.step (.dup o) = some (w', .object o) ∧ Inv w' ∧ w'.mem = w.mem ∧ w'.body = w.body ∧
      w'.objs.length = w.objs.length ∧ w'.vars = o :: w.vars := by
  obtain ⟨x, hx⟩ := h.counted.held ho
  have hbody : (w.put o (some { x with rc := x.rc + 1 })).body = w.body := by
    rw [World.body_put hx]
    funext k
    simp only [upd]
    split
    · rename_i e; subst e; exact (World.body_obj hx).symm
    · rfl
  have hb2 : ({ (w.put o (some { x with rc := x.rc + 1 })) with vars := o :: w.vars } : World).body = w.body := hbody
  refine ⟨{ (w.put o (some { x with rc := x.rc + 1 })) with vars := o :: w.vars }, ?_, ⟨h.mem, ?_, ?_⟩, rfl, hbody, ?_, rfl⟩
  · simp [World.step, World.incref, hx, World.put]
  · rw [hb2]; exact h.own
  · refine ⟨?_, ?_, ?_⟩
    · intro k
      have hc := h.counted.count k
      have hl := World.links_put hx (some { x with rc := x.rc + 1 }) k
      have hr := World.rcOf_put hx (some { x with rc := x.rc + 1 }) k
      have hro := World.rcOf_obj hx
      show (w.put o (some { x with rc := x.rc + 1 })).rcOf k = (o :: w.vars).count k + (w.put o (some { x with rc := x.rc + 1 })).links k
      rw [hr, List.count_cons]
      simp only [Option.bind_some] at hl
      by_cases e : k = o
      · subst e
        simp only [if_true, Option.map_some, Option.getD_some, BEq.rfl]
        omega
      · have e' : ¬ o = k := fun h => e h.symm
        simp only [e, if_false, beq_iff_eq, e']
        omega
    · intro k y hy
      have hy : (w.put o (some { x with rc := x.rc + 1 })).obj k = some y := hy
      rw [World.obj_put hx] at hy
      split at hy
      · cases hy; exact Nat.succ_pos _
      · exact h.counted.pos k y hy
    · rw [hb2]; exact h.counted.link
  · simp [World.put]

theorem below_spec {w : World} {n p : Nat} (h : p ∉ Spec.below w n) : ∀ t, w.mem.look (Forest.sub n) = some t → p ∉ t.ids := by
  intro t ht hp
  exact h (by simp [Spec.below, ht, hp])

theorem setBody_ok {w : World} (hc : w.Counted) {m : Mem} (hm : MemOk m) {o : Nat} {n n' : Option Nat} {f f' : Bool} {q : Option Nat}
    (hb : w.body o = some (.node n f q)) (ho : Own m (upd w.body o (some (.node n' f' q)))) :
    ∃ w', ({ w with mem := m } : World).setBody o (.node n' f' q) = some w' ∧ Inv w' := by
  obtain ⟨x, hx, hxb⟩ := World.obj_of_body hb
  have hx1 : ({ w with mem := m } : World).obj o = some x := hx
  have hs : ({ w with mem := m } : World).setBody o (.node n' f' q) =
      some (({ w with mem := m } : World).put o (some { x with body := .node n' f' q })) := by
    simp [World.setBody, hx1]
  have hc1 : ({ w with mem := m } : World).Counted := hc.congr rfl rfl
  have hb1 : ({ w with mem := m } : World).body o = some (.node n f q) := hb
  obtain ⟨c1, c2, c3, c4⟩ := hc1.setBody (b := .node n' f' q) hb1 rfl nofun hs
  refine ⟨_, hs, ?_, ?_, c1⟩
  · rw [c3]; exact hm
  · rw [c2, c3]
    exact ho

/-- Every legal call made with care has defined behaviour and keeps everything in order. -/
theorem step_ok {w : World} (h : Inv w) {op : Op} (hl : Spec.legal w op = true) (hc : Spec.careful w op = true) :
    ∃ w' v, w.step op = some (w', v) ∧ Inv w' := by
  simp only [Spec.legal, Bool.and_eq_true] at hl
  obtain ⟨hu, ht⟩ := hl
  cases op with
  | parse s kids =>
    obtain ⟨w', h1, h2, _⟩ := parse_ok h s kids
    exact ⟨w', _, h1, h2⟩
  | newDoc =>
    obtain ⟨w', h1, h2, _⟩ := newDoc_ok h
    exact ⟨w', _, h1, h2⟩
  | newNode s =>
    cases s with
    | none => exact ⟨_, _, rfl, h.new rfl rfl ⟨nofun, nofun⟩⟩
    | some s =>
      refine ⟨_, _, rfl, h.mem.newNode s, ?_, (h.counted.new (b := .node (some w.mem.nextNode) true none) rfl).congr rfl rfl⟩
      have := h.own.newNode h.mem s (World.body_length w)
      rw [← World.body_new] at this
      exact this
  | root o =>
    obtain ⟨d, hd⟩ := Option.isSome_iff_exists.1 ht
    obtain ⟨f, hf⟩ := World.asDoc_eq.1 hd
    obtain ⟨t, htr⟩ := Option.isSome_iff_exists.1 ((h.own.alive o _ hf).2 d rfl)
    simp only [World.step, hd, htr, Option.bind_eq_bind, Option.bind_some]
    obtain ⟨w', v, h1, h2, _⟩ := give_ok h (n := t.tops.head?.map (·.1)) (q := some o)
      (fun i hi => by
        obtain ⟨x, hx, rfl⟩ := Option.map_eq_some_iff.1 hi
        exact Mem.mem_ids.2 (.inr ⟨d, t, htr, tops_ids (List.mem_of_mem_head? hx)⟩))
      (fun p hp => by cases hp; exact ⟨d, f, hf⟩)
    exact ⟨w', v, h1, h2⟩
  | get o path =>
    obtain ⟨d, hd⟩ := Option.isSome_iff_exists.1 ht
    obtain ⟨f, hf⟩ := World.asDoc_eq.1 hd
    obtain ⟨t, htr⟩ := Option.isSome_iff_exists.1 ((h.own.alive o _ hf).2 d rfl)
    simp only [World.step, hd, htr, Option.bind_eq_bind, Option.bind_some]
    obtain ⟨w', v, h1, h2, _⟩ := give_ok h (n := World.walk t path) (q := some o)
      (fun i hi => Mem.mem_ids.2 (.inr ⟨d, t, htr, walk_ids hi⟩))
      (fun p hp => by cases hp; exact ⟨d, f, hf⟩)
    exact ⟨w', v, h1, h2⟩
  | nav o k =>
    obtain ⟨⟨n, f, q⟩, hn⟩ := Option.isSome_iff_exists.1 ht
    have hb := World.asNode_eq.1 hn
    simp only [World.step, hn, Option.bind_eq_bind, Option.bind_some]
    cases n with
    | none => exact ⟨w, _, rfl, h⟩
    | some n =>
      have hni := (h.own.alive o _ hb).1 n rfl
      obtain ⟨r, hr⟩ := Mem.look_some (g := fun f => k.go f n) (n := n) (fun f => go_isSome f n k) hni
      simp only [hr, Option.bind_some]
      obtain ⟨w', v, h1, h2, _⟩ := give_ok h (n := r) (q := q)
        (fun i hi => by
          obtain ⟨f0, hf0, hg⟩ := findSome_mem hr
          subst hi
          exact mem_allIds.2 ⟨f0, hf0, go_ids hg⟩)
        (fun p hp => h.counted.link o _ p hb hp)
      exact ⟨w', v, h1, h2⟩
  | name o =>
    obtain ⟨⟨n, f, q⟩, hn⟩ := Option.isSome_iff_exists.1 ht
    have hb := World.asNode_eq.1 hn
    simp only [World.step, hn, Option.bind_eq_bind, Option.bind_some]
    cases n with
    | none => exact ⟨w, _, rfl, h⟩
    | some n =>
      obtain ⟨s, hs⟩ := Mem.look_some (nameOf_isSome n) ((h.own.alive o _ hb).1 n rfl)
      simp only [hs, Option.bind_some]
      exact ⟨w, _, rfl, h⟩
  | getDoc o =>
    obtain ⟨⟨n, f, q⟩, hn⟩ := Option.isSome_iff_exists.1 ht
    have hb := World.asNode_eq.1 hn
    simp only [World.step, hn, Option.bind_eq_bind, Option.bind_some]
    cases n with
    | none => exact ⟨w, _, rfl, h⟩
    | some n =>
      obtain ⟨e, he⟩ := Mem.look_some (docOf_isSome n) ((h.own.alive o _ hb).1 n rfl)
      simp only [he, Option.bind_some]
      cases e with
      | none => exact ⟨w, _, rfl, h⟩
      | some d =>
        simp only [World.docCreate_eq, Option.bind_some]
        refine ⟨_, _, rfl, ?_⟩
        have hr : (w.mem.root d).isSome := by
          obtain ⟨f0, hf0, hg⟩ := findSome_mem he
          rcases Mem.mem_forests.1 hf0 with e | ⟨d', hd'⟩
          · subst e
            have := h.mem.looseDoc.docOf hg
            cases this
          · rcases (h.mem.docDoc d' f0 hd').docOf hg with e | e
            · cases e
            · cases e; rw [hd']; rfl
        have hi := h.new (b := .doc d false) rfl rfl ⟨nofun, fun d' hd' => by cases hd'; exact hr⟩
        exact hi.setMem rfl (fun d => root_append_none d) Mem.ids_append_none rfl
  | cursor o =>
    obtain ⟨⟨n, f, q⟩, hn⟩ := Option.isSome_iff_exists.1 ht
    have hb := World.asNode_eq.1 hn
    simp only [World.step, hn, Option.bind_eq_bind, Option.bind_some]
    cases n with
    | none => exact ⟨_, _, rfl, h.new rfl rfl ⟨nofun, nofun⟩⟩
    | some n =>
      have hni := (h.own.alive o _ hb).1 n rfl
      obtain ⟨s, hs⟩ := Mem.look_some (nameOf_isSome n) hni
      simp only [hs, Option.bind_some]
      exact ⟨_, _, rfl, h.new rfl rfl ⟨fun i hi => by cases hi; exact hni, nofun⟩⟩
  | cursorRead o =>
    simp only [Spec.typed, Option.any_eq_true] at ht
    obtain ⟨x, hx, hxb⟩ := ht
    simp only [World.step, hx, Option.bind_eq_bind, Option.bind_some]
    cases hb : x.body with
    | doc d f => rw [hb] at hxb; cases hxb
    | node n f q => rw [hb] at hxb; cases hxb
    | cursor n f =>
      cases n with
      | none => exact ⟨w, _, rfl, h⟩
      | some n =>
        have hbo : w.body o = some (.cursor (some n) f) := by rw [World.body_obj hx, hb]
        obtain ⟨s, hs⟩ := Mem.look_some (nameOf_isSome n) ((h.own.alive o _ hbo).1 n rfl)
        simp only [hs, Option.bind_some]
        exact ⟨w, _, rfl, h⟩
  | setRoot o c =>
    obtain ⟨d, hd⟩ := Option.isSome_iff_exists.1 ht
    simp only [Spec.careful, Bool.and_eq_true, Option.any_eq_true, Spec.noRoot, hd] at hc
    obtain ⟨⟨d', e, hroot⟩, c, rfl, hfree⟩ := hc
    cases e
    have hroot : w.mem.root d = some .nil := by simpa using hroot
    simp only [Spec.isFree] at hfree
    split at hfree
    case h_2 => cases hfree
    rename_i k q hk
    have hb := World.asNode_eq.1 hk
    obtain ⟨m', h1, h2, h3⟩ := setRoot_ok h.mem h.own hb hroot
    obtain ⟨w', h4, h5⟩ := setBody_ok h.counted h2 hb h3
    exact ⟨w', .nothing, by simp only [World.step, hd, hk, h1, h4, Option.bind_eq_bind, Option.bind_some], h5⟩
  | setChild p c =>
    simp only [Spec.careful, Bool.and_eq_true] at hc
    obtain ⟨⟨hfree, hmay⟩, hap⟩ := hc
    simp only [Spec.isFree] at hfree
    split at hfree
    case h_2 => cases hfree
    rename_i k q hk
    have hb := World.asNode_eq.1 hk
    simp only [Spec.mayHold] at hmay
    split at hmay
    case h_2 => cases hmay
    rename_i n f qp hp
    have hbp := World.asNode_eq.1 hp
    simp only [Spec.apart, hp, hk, Bool.not_eq_true', decide_eq_false_iff_not] at hap
    obtain ⟨m', h1, h2, h3, h3'⟩ := setChild_ok h.mem h.own hb ((h.own.alive p _ hbp).1 n rfl) (below_spec hap)
    obtain ⟨w', h4, h5⟩ := setBody_ok h.counted h2 hb h3
    obtain ⟨e, he⟩ := Mem.look_some (docOf_isSome n) ((h.own.alive p _ hbp).1 n rfl)
    rw [he] at hmay h3'
    have hcond : (if (e.isSome || f) = true then false else true) = false := by
      simp only [Option.join_some] at hmay
      rw [Bool.or_comm, hmay]; rfl
    refine ⟨w', .nothing, ?_, h5⟩
    simp only [World.step, hp, hk, h1, h3', hcond, h4, Option.bind_eq_bind, Option.bind_some]
  | setChildAfter p c =>
    simp only [Spec.careful, Bool.and_eq_true] at hc
    obtain ⟨⟨⟨hfree, hmay⟩, hap⟩, hpar⟩ := hc
    simp only [Spec.isFree] at hfree
    split at hfree
    case h_2 => cases hfree
    rename_i k q hk
    have hb := World.asNode_eq.1 hk
    simp only [Spec.mayHold] at hmay
    split at hmay
    case h_2 => cases hmay
    rename_i n f qp hp
    have hbp := World.asNode_eq.1 hp
    simp only [Spec.apart, hp, hk, Bool.not_eq_true', decide_eq_false_iff_not] at hap
    simp only [Spec.hasParent, hp] at hpar
    obtain ⟨up, hup⟩ := Option.isSome_iff_exists.1 hpar
    have hup' : w.mem.look (Forest.parentOf n none) = some (some up) := by
      cases hl : w.mem.look (Forest.parentOf n none) with
      | none => rw [hl] at hup; cases hup
      | some x => rw [hl] at hup; simpa using hup
    obtain ⟨m', h1, h2, h3, h3'⟩ := setChildAfter_ok h.mem h.own hb hup' (below_spec hap)
    obtain ⟨w', h4, h5⟩ := setBody_ok h.counted h2 hb h3
    obtain ⟨e, he⟩ := Mem.look_some (docOf_isSome n) ((h.own.alive p _ hbp).1 n rfl)
    rw [he] at hmay h3'
    have hcond : (if (e.isSome || f) = true then false else true) = false := by
      simp only [Option.join_some] at hmay
      rw [Bool.or_comm, hmay]; rfl
    refine ⟨w', .nothing, ?_, h5⟩
    simp only [World.step, hp, hk, h1, h3', hcond, h4, Option.bind_eq_bind, Option.bind_some]
  | remove o =>
    obtain ⟨⟨n, f, q⟩, hn⟩ := Option.isSome_iff_exists.1 ht
    have hb := World.asNode_eq.1 hn
    cases n with
    | none =>
      have ho : Own w.mem (upd w.body o (some (.node none f q))) := by
        have : upd w.body o (some (.node none f q)) = w.body := by
          funext k
          simp only [upd]
          split
          · rename_i e; subst e; exact hb.symm
          · rfl
        rw [this]; exact h.own
      obtain ⟨w', h4, h5⟩ := setBody_ok h.counted h.mem hb ho
      exact ⟨w', .nothing, by simp only [World.step, hn, h4, Option.bind_eq_bind, Option.bind_some], h5⟩
    | some n =>
      simp only [Spec.careful, hn] at hc
      obtain ⟨t, ht'⟩ := findSome_sub ((h.own.alive o _ hb).1 n rfl)
      have ht' : w.mem.look (Forest.sub n) = some t := ht'
      obtain ⟨m', h1, h2, h3⟩ := nodeRemove_ok h.mem h.own hb ht' fun p y i hp hy hi => by
        have := (noneLeft_spec hc hy (by simp [hp])).2 i hi
        simpa [Spec.below, ht'] using this
      obtain ⟨w', h4, h5⟩ := setBody_ok h.counted h2 hb h3
      exact ⟨w', .nothing, by simp only [World.step, hn, h1, h4, Option.bind_eq_bind, Option.bind_some], h5⟩
  | dup o =>
    obtain ⟨w', h1, h2, _⟩ := dup_ok h (o := o) (by simpa [Spec.uses] using hu)
    exact ⟨w', _, h1, h2⟩
  | drop o =>
    obtain ⟨w', h1, h2⟩ := drop_ok h (o := o) (by simpa [Spec.uses] using hu) hc
    exact ⟨w', _, h1, h2⟩

theorem start_inv : Inv World.start := by
  refine ⟨⟨?_, ?_, trivial, ?_⟩, ⟨?_, ?_, ?_, ?_, ?_, ?_⟩, ⟨?_, ?_, ?_⟩⟩ <;>
    simp [World.start, Mem.ids, Mem.forests, Forest.ids, Mem.root, World.body, World.obj, World.rcOf, World.links, Forest.topIds, Forest.tops]

/-- A careful program has defined behaviour, and leaves everything in order. -/
theorem run_ok : ∀ {ops : List Op} {w : World}, Inv w → Spec.Careful w ops = true → ∃ w', w.run ops = some w' ∧ Inv w'
  | [], w, h, _ => ⟨w, rfl, h⟩
  | op :: ops, w, h, hc => by
    simp only [Spec.Careful, Bool.and_eq_true] at hc
    obtain ⟨⟨hl, hca⟩, hrest⟩ := hc
    obtain ⟨w1, v, h1, h2⟩ := step_ok h hl hca
    rw [h1] at hrest
    obtain ⟨w', h3, h4⟩ := run_ok h2 hrest
    exact ⟨w', by simp [World.run, h1, h3], h4⟩

/-- What the objects are about is there. -/
theorem alive_ok {w : World} (h : Inv w) {o : Nat} (ho : o ∈ w.vars) : Spec.isAlive w o = true := by
  obtain ⟨x, hx⟩ := h.counted.held ho
  have hb := World.body_obj hx
  have ha := h.own.alive o _ hb
  simp only [Spec.isAlive, spec_body, hb]
  cases hxb : x.body with
  | doc d f => rw [hxb] at ha; exact ha.2 d rfl
  | node n f q =>
    cases n with
    | none => rfl
    | some n => rw [hxb] at ha; exact decide_eq_true (ha.1 n rfl)
  | cursor n f =>
    cases n with
    | none => rfl
    | some n => rw [hxb] at ha; exact decide_eq_true (ha.1 n rfl)

/-- A document is there as long as the program holds it or something got from it. -/
theorem keeps_ok {w : World} (h : Inv w) (d : Nat) : (w.mem.root d).isSome = true ↔ ∃ o ∈ w.vars, Spec.keeps w d o = true := by
  constructor
  · intro hd
    obtain ⟨o, ho⟩ := h.own.docOwner d hd
    obtain ⟨x, hx, _⟩ := World.obj_of_body ho
    have hpos := h.counted.pos o x hx
    have hc := h.counted.count o
    rw [World.rcOf_obj hx] at hc
    by_cases hv : o ∈ w.vars
    · exact ⟨o, hv, by simp [Spec.keeps, spec_body, ho]⟩
    · have h0 := List.count_eq_zero_of_not_mem hv
      obtain ⟨p, y, hp, hlink⟩ := World.exists_link (w := w) (q := o) (by omega)
      obtain ⟨z, hz, hzb⟩ := World.obj_of_body hp
      have hzpos := h.counted.pos p z hz
      have hcp := h.counted.count p
      rw [World.rcOf_obj hz] at hcp
      have hlp : w.links p = 0 := by
        rcases Nat.eq_zero_or_pos (w.links p) with e | e
        · exact e
        · obtain ⟨p', y', hp', hl'⟩ := World.exists_link e
          obtain ⟨d', f', hd'⟩ := h.counted.link p' y' p hp' hl'
          rw [hp] at hd'
          cases hd'
          cases hlink
      refine ⟨p, List.count_pos_iff.1 (by omega), ?_⟩
      cases y with
      | doc d f => cases hlink
      | cursor n f => cases hlink
      | node n f q =>
        cases hlink
        have : w.asDoc o = some d := World.asDoc_eq.2 ⟨_, ho⟩
        simp [Spec.keeps, spec_body, hp, this]
  · rintro ⟨o, _, ho⟩
    simp only [Spec.keeps, spec_body] at ho
    split at ho
    · rename_i e f hb
      have : e = d := by simpa using ho
      subst this
      exact (h.own.alive o _ hb).2 e rfl
    · rename_i n f q hb
      have : w.asDoc q = some d := by simpa using ho
      obtain ⟨f', hf'⟩ := World.asDoc_eq.1 this
      exact (h.own.alive q _ hf').2 d rfl
    · cases ho

/-- When the program holds nothing any more, nothing is left. -/
theorem empty_ok {w : World} (h : Inv w) (hv : w.vars = []) :
    (∀ o, w.obj o = none) ∧ (∀ d, w.mem.root d = none) ∧ w.mem.loose = .nil := by
  have hobj : ∀ o, w.obj o = none := by
    intro o
    cases ho : w.obj o with
    | none => rfl
    | some x =>
      exfalso
      have hpos := h.counted.pos o x ho
      have hc := h.counted.count o
      rw [World.rcOf_obj ho, hv, List.count_nil] at hc
      obtain ⟨p, y, hp, hlink⟩ := World.exists_link (w := w) (q := o) (by omega)
      obtain ⟨z, hz, hzb⟩ := World.obj_of_body hp
      have hzpos := h.counted.pos p z hz
      have hcp := h.counted.count p
      rw [World.rcOf_obj hz, hv, List.count_nil] at hcp
      obtain ⟨p', y', hp', hl'⟩ := World.exists_link (w := w) (q := p) (by omega)
      obtain ⟨d', f', hd'⟩ := h.counted.link p' y' p hp' hl'
      rw [hp] at hd'
      cases hd'
      cases hlink
  refine ⟨hobj, ?_, ?_⟩
  · intro d
    cases hd : w.mem.root d with
    | none => rfl
    | some f =>
      obtain ⟨o, ho⟩ := h.own.docOwner d (by rw [hd]; rfl)
      obtain ⟨x, hx, _⟩ := World.obj_of_body ho
      rw [hobj] at hx
      cases hx
  · refine nil_of_topIds ?_
    cases ht : w.mem.loose.topIds with
    | nil => rfl
    | cons n l =>
      obtain ⟨o, q, ho⟩ := h.own.nodeOwner n (by rw [ht]; exact List.mem_cons_self)
      obtain ⟨x, hx, _⟩ := World.obj_of_body ho
      rw [hobj] at hx
      cases hx

end Axl.Py
