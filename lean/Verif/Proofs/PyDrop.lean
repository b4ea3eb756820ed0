/-
Dropping a reference in `Verif.Model.Py`.
-/
import Verif.Proofs.PyCount

namespace Axl.Py
open Forest
namespace World

theorem count_erase (l : List Nat) {o : Nat} (h : o ∈ l) (k : Nat) :
    (l.erase o).count k + (if k = o then 1 else 0) = l.count k := by
  have hp := List.count_pos_iff.2 h
  by_cases e : k = o
  · subst e
    rw [List.count_erase_self]
    simp; omega
  · rw [List.count_erase_of_ne e]
    simp [e]

/-- There are more references. -/
theorem Counted.dropMore {w : World} (h : Counted w) {o : Nat} {x : Obj} (ho : o ∈ w.vars) (hx : w.obj o = some x) (h1 : 1 < x.rc) :
    Counted (({ w with vars := w.vars.erase o } : World).put o (some { x with rc := x.rc - 1 })) ∧
      (({ w with vars := w.vars.erase o } : World).put o (some { x with rc := x.rc - 1 })).body = w.body := by
  have hx0 : ({ w with vars := w.vars.erase o } : World).obj o = some x := hx
  have hbody : (({ w with vars := w.vars.erase o } : World).put o (some { x with rc := x.rc - 1 })).body = w.body := by
    rw [body_put hx0]
    funext k
    simp only [upd]
    split
    · rename_i e; subst e; exact (body_obj hx).symm
    · rfl
  refine ⟨⟨?_, ?_, ?_⟩, hbody⟩
  · intro k
    have hc := h.count k
    have hl := links_put hx0 (some { x with rc := x.rc - 1 }) k
    have hv := count_erase w.vars ho k
    have hl0 : ({ w with vars := w.vars.erase o } : World).links k = w.links k := rfl
    have hr0 : ({ w with vars := w.vars.erase o } : World).rcOf k = w.rcOf k := rfl
    simp only [Option.bind_some, hl0] at hl
    rw [rcOf_put hx0, hr0]
    show _ = (w.vars.erase o).count k + _
    by_cases e : k = o
    · subst e
      have := rcOf_obj hx
      simp only [if_true, Option.map_some, Option.getD_some] at hv ⊢
      omega
    · simp only [e, if_false] at hv ⊢
      omega
  · intro k y hy
    rw [obj_put hx0] at hy
    split at hy
    · cases hy; show 0 < x.rc - 1; omega
    · exact h.pos k y hy
  · rw [hbody]; exact h.link

/-- The last reference to an object without link. -/
theorem Counted.dropLast {w : World} (h : Counted w) {o : Nat} {x : Obj} (ho : o ∈ w.vars) (hx : w.obj o = some x) (h1 : x.rc = 1)
    (hl : x.body.link = none) :
    Counted (({ w with vars := w.vars.erase o } : World).put o none) ∧
      (({ w with vars := w.vars.erase o } : World).put o none).body = upd w.body o none := by
  have hx0 : ({ w with vars := w.vars.erase o } : World).obj o = some x := hx
  have hbody : (({ w with vars := w.vars.erase o } : World).put o none).body = upd w.body o none := body_put hx0 _
  have hlo : w.links o = 0 := by
    have := h.count o
    rw [rcOf_obj hx] at this
    have := List.count_pos_iff.2 ho
    omega
  refine ⟨⟨?_, ?_, ?_⟩, hbody⟩
  · intro k
    have hc := h.count k
    have hlk := links_put hx0 none k
    have hv := count_erase w.vars ho k
    have hl0 : ({ w with vars := w.vars.erase o } : World).links k = w.links k := rfl
    have hr0 : ({ w with vars := w.vars.erase o } : World).rcOf k = w.rcOf k := rfl
    simp [hl, hl0] at hlk
    rw [rcOf_put hx0, hr0]
    show _ = (w.vars.erase o).count k + _
    by_cases e : k = o
    · subst e
      have := rcOf_obj hx
      simp only [if_true, Option.map_none, Option.getD_none] at hv ⊢
      omega
    · simp only [e, if_false] at hv ⊢
      omega
  · intro k y hy
    rw [obj_put hx0] at hy
    split at hy
    · cases hy
    · exact h.pos k y hy
  · intro k y q hy hq
    rw [hbody] at hy ⊢
    rcases upd_some hy with ⟨_, e⟩ | ⟨_, e⟩
    · cases e
    · obtain ⟨d, f, hd⟩ := h.link k y q e hq
      have : q ≠ o := fun e' => by
        have := links_pos e hq
        rw [e', hlo] at this
        exact Nat.lt_irrefl _ this
      exact ⟨d, f, by rw [upd_ne _ _ this]; exact hd⟩

/-- The `axl.Doc` that an object which goes away holds, after its count went down. -/
def less (y : Obj) : Option Obj := if y.rc ≤ 1 then none else some { y with rc := y.rc - 1 }

/-- The last reference to an object that is linked. -/
theorem Counted.dropLinked {w : World} (h : Counted w) {o q : Nat} {x y : Obj} (ho : o ∈ w.vars) (hx : w.obj o = some x) (h1 : x.rc = 1)
    (hl : x.body.link = some q) (hy : w.obj q = some y) :
    let w' := (({ w with vars := w.vars.erase o } : World).put q (less y)).put o none
    Counted w' ∧ w'.body = upd (if y.rc ≤ 1 then upd w.body q none else w.body) o none := by
  intro w'
  have ne : o ≠ q := by
    intro e
    obtain ⟨d, f, hd⟩ := h.link o _ q (body_obj hx) hl
    rw [← e, body_obj hx] at hd
    rw [Option.some.inj hd] at hl
    cases hl
  have hy0 : ({ w with vars := w.vars.erase o } : World).obj q = some y := hy
  have hx1 : (({ w with vars := w.vars.erase o } : World).put q (less y)).obj o = some x := by
    rw [obj_put hy0, if_neg ne]; exact hx
  have hbody : w'.body = upd (if y.rc ≤ 1 then upd w.body q none else w.body) o none := by
    show ((({ w with vars := w.vars.erase o } : World).put q (less y)).put o none).body = _
    rw [body_put hx1, body_put hy0]
    have e0 : ({ w with vars := w.vars.erase o } : World).body = w.body := rfl
    rw [e0]
    simp only [Option.map_none]
    congr 1
    by_cases hr : y.rc ≤ 1
    · simp [less, hr]
    · simp only [less, hr, if_false, Option.map_some]
      funext k
      simp only [upd]
      split
      · rename_i e; subst e; exact (body_obj hy).symm
      · rfl
  have hlo : w.links o = 0 := by
    have := h.count o
    rw [rcOf_obj hx] at this
    have := List.count_pos_iff.2 ho
    omega
  have hqpos := h.pos q y hy
  refine ⟨⟨?_, ?_, ?_⟩, hbody⟩
  · intro k
    have hc := h.count k
    have hl1 := links_put hy0 (less y) k
    have hl2 := links_put hx1 none k
    have hv := count_erase w.vars ho k
    have hl0 : ({ w with vars := w.vars.erase o } : World).links k = w.links k := rfl
    have hr0 : ({ w with vars := w.vars.erase o } : World).rcOf k = w.rcOf k := rfl
    have hly : (less y).bind (·.body.link) = if y.rc ≤ 1 then none else y.body.link := by
      simp only [less]; split <;> rfl
    obtain ⟨d, f, hd⟩ := h.link o _ q (body_obj hx) hl
    rw [body_obj hy] at hd
    have hyl : y.body.link = none := by rw [Option.some.inj hd]; rfl
    rw [hly, hyl, hl0] at hl1
    simp at hl1
    simp only [hl, Option.some.injEq, Option.bind_none] at hl2
    rw [hl1] at hl2
    simp at hl2
    show (((({ w with vars := w.vars.erase o } : World).put q (less y)).put o none).rcOf k) =
      (w.vars.erase o).count k + ((({ w with vars := w.vars.erase o } : World).put q (less y)).put o none).links k
    rw [rcOf_put hx1, rcOf_put hy0, hr0]
    by_cases e : k = o
    · subst e
      have := rcOf_obj hx
      have e' : ¬ q = k := fun h => ne h.symm
      simp only [if_true, Option.map_none, Option.getD_none, e', if_false] at hv hl2 ⊢
      omega
    · simp only [e, if_false] at hv ⊢
      by_cases e2 : k = q
      · subst e2
        have := rcOf_obj hy
        simp only [if_true] at hl2 ⊢
        have hlr : ((less y).map Obj.rc).getD 0 = y.rc - 1 := by
          simp only [less]
          split
          · simp; omega
          · simp
        rw [hlr]
        omega
      · have e3 : ¬ q = k := fun h => e2 h.symm
        simp only [e2, e3, if_false] at hl2 ⊢
        omega
  · intro k z hz
    change ((({ w with vars := w.vars.erase o } : World).put q (less y)).put o none).obj k = some z at hz
    rw [obj_put hx1] at hz
    split at hz
    · cases hz
    · rw [obj_put hy0] at hz
      split at hz
      · simp only [less] at hz
        split at hz
        · cases hz
        · cases hz; show 0 < y.rc - 1; omega
      · exact h.pos k z hz
  · intro k z q' hz hq'
    rw [hbody] at hz ⊢
    rcases upd_some hz with ⟨_, e⟩ | ⟨nek, e⟩
    · cases e
    · have hk : w.body k = some z := by
        split at e
        · rcases upd_some e with ⟨_, e⟩ | ⟨_, e⟩
          · cases e
          · exact e
        · exact e
      obtain ⟨d, f, hd⟩ := h.link k z q' hk hq'
      have n1 : q' ≠ o := fun e' => by
        have := links_pos hk hq'
        rw [e', hlo] at this
        exact Nat.lt_irrefl _ this
      refine ⟨d, f, ?_⟩
      rw [upd_ne _ _ n1]
      split
      · rename_i hrc
        have n2 : q' ≠ q := by
          intro e'
          subst e'
          -- two objects hold a reference, and the count is one
          have hc := h.count q'
          rw [rcOf_obj hy] at hc
          have hlink : 2 ≤ w.links q' := by
            have hl2 := links_put hx none q'
            simp only [hl, if_true, Option.bind_none] at hl2
            have : 0 < (w.put o none).links q' := by
              refine links_pos (o := k) (x := z) ?_ hq'
              rw [body_put hx, upd_ne _ _ nek]
              exact hk
            simp at hl2
            omega
          omega
        rw [upd_ne _ _ n2]; exact hd
      · exact hd

end World

/-- Everything is in order. -/
structure Inv (w : World) : Prop where
  mem : MemOk w.mem
  own : Own w.mem w.body
  counted : w.Counted

theorem spec_body (w : World) (o : Nat) : (w.obj o).map Obj.body = w.body o := rfl

theorem noneLeft_spec {w : World} {docs nodes except : List Nat} (h : Spec.noneLeft w docs nodes except = true) {p : Nat} {y : Body}
    (hp : w.body p = some y) (hn : p ∉ except) :
    (∀ d, y.docOf = some d → d ∉ docs) ∧ ∀ n, y.nodeOf = some n → n ∉ nodes := by
  obtain ⟨x, hx, rfl⟩ := World.obj_of_body hp
  simp only [Spec.noneLeft, List.all_eq_true, List.mem_range] at h
  have := h p (World.obj_lt hx)
  simp only [hn, decide_false, Bool.false_or, Bool.not_eq_true', Spec.about, spec_body, hp] at this
  cases hb : x.body with
  | doc d f =>
    rw [hb] at this
    refine ⟨fun e he => ?_, fun n hn => by cases hn⟩
    cases he
    simpa using this
  | node n f q =>
    rw [hb] at this
    refine ⟨fun e he => (nomatch he), fun i hi => ?_⟩
    cases n with
    | none => cases hi
    | some n => cases hi; simpa using this
  | cursor n f =>
    rw [hb] at this
    refine ⟨fun e he => (nomatch he), fun i hi => ?_⟩
    cases n with
    | none => cases hi
    | some n => cases hi; simpa using this

theorem look_loose {α : Type} {m : Mem} {g : Forest → Option α} {a : α} (h : g m.loose = some a) : m.look g = some a := by
  simp [Mem.look, Mem.forests, h]

theorem loose_docOf {m : Mem} (h : MemOk m) {n : Nat} (hn : n ∈ m.loose.ids) : m.look (Forest.docOf n) = some none := by
  obtain ⟨e, he⟩ := Option.isSome_iff_exists.1 ((docOf_isSome n m.loose).trans (by simpa using hn))
  have := h.looseDoc.docOf he
  subst this
  exact look_loose he

/-- The nodes that go away with an object that frees a node. -/
theorem nodesOf_node {w : World} (hi : Inv w) {o n : Nat} {q : Option Nat} {t : Forest}
    (ho : w.body o = some (.node (some n) true q)) (ht : w.mem.loose.sub n = some t) : Spec.nodesOf w o = t.ids := by
  have htop := hi.own.nodeTop o n q ho
  simp only [Spec.nodesOf, spec_body, ho, loose_docOf hi.mem (topIds_ids htop), if_true, Spec.below, look_loose ht,
    Option.map_some, Option.getD_some]

/-- A reference is dropped with care. -/
theorem drop_ok {w : World} (hi : Inv w) {o : Nat} (ho : o ∈ w.vars) (hc : Spec.careful w (.drop o) = true) :
    ∃ w', w.step (.drop o) = some (w', .nothing) ∧ Inv w' := by
  obtain ⟨x, hx⟩ := hi.counted.held ho
  have hpos := hi.counted.pos o x hx
  have hx0 : ({ w with vars := w.vars.erase o } : World).obj o = some x := hx
  simp only [World.step, World.decref, hx0, Option.bind_eq_bind, Option.bind_some]
  by_cases hrc : x.rc ≤ 1
  · have h1 : x.rc = 1 := by omega
    simp only [hrc, if_true]
    have hgone : Spec.gone w o = o :: (match x.body.link with
        | some q => if (w.obj q).any (·.rc == 1) then [q] else []
        | none => []) := by
      obtain ⟨rc, b⟩ := x
      simp only at h1
      subst h1
      cases b with
      | doc d f => simp [Spec.gone, hx, Body.link]
      | cursor n f => simp [Spec.gone, hx, Body.link]
      | node n f q => cases q <;> simp [Spec.gone, hx, Body.link]; split <;> rfl
    simp only [Spec.careful] at hc
    cases hb : x.body with
    | cursor n f =>
      simp only [Option.bind_some]
      obtain ⟨c1, c2⟩ := hi.counted.dropLast ho hx h1 (by rw [hb]; rfl)
      refine ⟨_, rfl, hi.mem, ?_, c1⟩
      rw [c2]
      refine hi.own.unset fun y hy => ?_
      rw [World.body_obj hx, hb] at hy
      cases hy; rfl
    | doc d f =>
      have hbo : w.body o = some (.doc d f) := by rw [World.body_obj hx, hb]
      obtain ⟨c1, c2⟩ := hi.counted.dropLast ho hx h1 (by rw [hb]; rfl)
      simp only [World.decrefDoc, hx0, hb, hrc, Option.bind_eq_bind, Option.bind_some, if_true, World.docDealloc]
      cases f with
      | false =>
        simp only [Bool.false_eq_true, if_false, Option.bind_some]
        refine ⟨_, rfl, hi.mem, ?_, c1⟩
        rw [c2]
        refine hi.own.unset fun y hy => ?_
        rw [hbo] at hy
        cases hy; rfl
      | true =>
        obtain ⟨t, ht⟩ := Option.isSome_iff_exists.1 ((hi.own.alive o _ hbo).2 d rfl)
        simp only [if_true, Mem.docFree, ht, Option.bind_eq_bind, Option.bind_some]
        refine ⟨_, rfl, hi.mem.docFree ht, ?_, c1.congr rfl rfl⟩
        have hs : ∀ p y, p ≠ o → w.body p = some y → (∀ e, y.docOf = some e → e ∉ [d]) ∧ ∀ n, y.nodeOf = some n → n ∉ t.ids := by
          intro p y hp hy
          have := noneLeft_spec hc hy (by rw [hgone, hb]; simp [Body.link, hp])
          rw [hgone, hb] at this
          simpa [Body.link, Spec.docsOf, Spec.nodesOf, spec_body, hbo, Spec.docNodes, ht] using this
        refine (c2 ▸ hi.own.docFree ht hbo (fun p y n hp hy => (hs p y hp hy).2 n) fun p y hp hy he => (hs p y hp hy).1 d he (by simp) :)
    | node n f q =>
      have hbo : w.body o = some (.node n f q) := by rw [World.body_obj hx, hb]
      -- the node
      have hnode : ∃ m, ({ w with vars := w.vars.erase o } : World).nodeFinish n f =
            some { w with vars := w.vars.erase o, mem := m } ∧ MemOk m ∧ Own m (upd w.body o none) ∧ m.docs = w.mem.docs := by
        cases f with
        | false =>
          refine ⟨w.mem, rfl, hi.mem, hi.own.unset fun y hy => ?_, rfl⟩
          rw [hbo] at hy
          cases hy
          cases n <;> rfl
        | true =>
          cases n with
          | none =>
            refine ⟨w.mem, rfl, hi.mem, hi.own.unset fun y hy => ?_, rfl⟩
            rw [hbo] at hy
            cases hy; rfl
          | some n =>
            have htop := hi.own.nodeTop o n q hbo
            obtain ⟨t, ht⟩ := loose_sub htop
            have hs : ∀ p y i, p ≠ o → w.body p = some y → y.nodeOf = some i → i ∉ t.ids := by
              intro p y i hp hy hyi hit
              have hp' : p ∉ Spec.gone w o := by
                rw [hgone, hb]
                simp only [List.mem_cons, hp, false_or, Body.link]
                cases q with
                | none => simp
                | some q =>
                  intro hm
                  simp only at hm
                  split at hm
                  · have hm := List.mem_singleton.1 hm
                    subst hm
                    obtain ⟨d, f, hd⟩ := hi.counted.link o _ p hbo rfl
                    rw [hd] at hy
                    cases hy
                    cases hyi
                  · cases hm
              have := (noneLeft_spec hc hy hp').2 i hyi
              apply this
              rw [hgone]
              simp only [List.flatMap_cons, List.mem_append]
              exact .inl (by rw [nodesOf_node hi hbo ht]; exact hit)
            refine ⟨{ w.mem with loose := w.mem.loose.without n }, ?_, hi.mem.without htop, hi.own.nodeFree hi.mem hbo ht hs, rfl⟩
            have htop' : n ∈ w.mem.loose.tops.map (·.1) := htop
            simp only [World.nodeFinish, if_true, loose_docOf hi.mem (topIds_ids htop), Option.bind_eq_bind, Option.bind_some,
              Mem.nodeFree, htop']
      obtain ⟨m, hm, hmok, hown, hdocs⟩ := hnode
      simp only [World.nodeDealloc, hm, Option.bind_eq_bind, Option.bind_some]
      cases q with
      | none =>
        obtain ⟨c1, c2⟩ := hi.counted.dropLast ho hx h1 (by rw [hb]; rfl)
        simp only [Option.bind_some]
        refine ⟨_, rfl, hmok, ?_, c1.congr rfl rfl⟩
        exact (c2 ▸ hown :)
      | some q =>
        obtain ⟨d, f', hd⟩ := hi.counted.link o _ q hbo rfl
        obtain ⟨y, hy, hyb⟩ := World.obj_of_body hd
        have hy1 : ({ w with vars := w.vars.erase o, mem := m } : World).obj q = some y := hy
        have hcount := hi.counted.dropLinked ho hx h1 (by rw [hb]; rfl) hy
        have neq : q ≠ o := fun e => by rw [e, hbo] at hd; cases hd
        simp only [World.decrefDoc, hy1, hyb, Option.bind_eq_bind, Option.bind_some]
        by_cases hyrc : y.rc ≤ 1
        · have hy1' : y.rc = 1 := by have := hi.counted.pos q y hy; omega
          simp only [hyrc, if_true, World.docDealloc]
          simp only [World.less, hyrc, if_true] at hcount
          cases f' with
          | false =>
            simp only [Bool.false_eq_true, if_false, Option.bind_some]
            refine ⟨_, rfl, hmok, ?_, hcount.1.congr rfl rfl⟩
            have e1 : upd (upd w.body q none) o none = upd (upd w.body o none) q none := by
              funext k; simp only [upd]; split <;> split <;> rfl
            rw [e1] at hcount
            refine (hcount.2 ▸ hown.unset fun z hz => ?_ :)
            rw [upd_ne _ _ neq, hd] at hz
            cases hz; rfl
          | true =>
            obtain ⟨t, ht⟩ := Option.isSome_iff_exists.1 ((hi.own.alive q _ hd).2 d rfl)
            have ht' : m.root d = some t := by rw [← ht]; simp [Mem.root, hdocs]
            simp only [if_true, Mem.docFree, ht', Option.bind_eq_bind, Option.bind_some]
            refine ⟨_, rfl, hmok.docFree ht', ?_, hcount.1.congr rfl rfl⟩
            have e1 : upd (upd w.body q none) o none = upd (upd w.body o none) q none := by
              funext k; simp only [upd]; split <;> split <;> rfl
            rw [e1] at hcount
            have hg : Spec.gone w o = [o, q] := by rw [hgone, hb]; simp [Body.link, hy, hy1']
            have hs : ∀ p z, p ≠ q → upd w.body o none p = some z → (∀ e, z.docOf = some e → e ≠ d) ∧
                ∀ i, z.nodeOf = some i → i ∉ t.ids := by
              intro p z hp hz
              rcases upd_some hz with ⟨_, e⟩ | ⟨hpo, e⟩
              · cases e
              · have := noneLeft_spec hc e (by rw [hg]; simp [hp, hpo])
                rw [hg] at this
                refine ⟨fun e' he' hed => this.1 e' he' ?_, fun i hi' hit => this.2 i hi' ?_⟩
                · subst hed
                  simp [Spec.docsOf, spec_body, hbo, hd]
                · simp only [List.flatMap_cons, List.flatMap_nil, List.append_nil, List.mem_append]
                  right
                  simp only [Spec.nodesOf, spec_body, hd, Spec.docNodes, ht]
                  exact hit
            exact (hcount.2 ▸ hown.docFree ht' (by rw [upd_ne _ _ neq]; exact hd) (fun p z i hp hz => (hs p z hp hz).2 i)
              fun p z hp hz he => (hs p z hp hz).1 d he rfl :)
        · simp only [hyrc, if_false, Option.bind_some]
          simp only [World.less, hyrc, if_false] at hcount
          refine ⟨_, rfl, hmok, ?_, hcount.1.congr (by simp only [← hyb]; rfl) rfl⟩
          have : ∀ v : World, v.objs = (((({ w with vars := w.vars.erase o } : World).put q (some { y with rc := y.rc - 1 })).put o none)).objs →
              v.body = upd w.body o none := by
            intro v hv
            rw [← hcount.2]
            funext k
            simp only [World.body, World.obj, hv]
          rw [this _ (by simp only [← hyb]; rfl)]
          exact hown
  · have h1 : 1 < x.rc := by omega
    obtain ⟨c1, c2⟩ := hi.counted.dropMore ho hx h1
    simp only [hrc, if_false, Option.bind_some]
    refine ⟨_, rfl, hi.mem, ?_, c1⟩
    rw [c2]
    exact hi.own

end Axl.Py
