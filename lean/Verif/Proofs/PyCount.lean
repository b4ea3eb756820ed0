/-
The reference counts of `Verif.Model.Py`: the count of an object is the number of variables that hold
it and of objects that hold a reference to it.
-/
import Verif.Proofs.PyOwn

namespace Axl.Py
namespace World

/-- What the objects hold. -/
def body (w : World) (o : Nat) : Option Body := (w.obj o).map Obj.body

/-- The count of an object, 0 if it is not there. -/
def rcOf (w : World) (o : Nat) : Nat := ((w.obj o).map Obj.rc).getD 0

/-- This object holds a reference to `o`. -/
def holdsRef (o : Nat) (x : Option Obj) : Bool := x.bind (·.body.link) == some o

/-- How many objects hold a reference to `o`. -/
def links (w : World) (o : Nat) : Nat := w.objs.countP (holdsRef o)

theorem obj_lt {w : World} {o : Nat} {x : Obj} (h : w.obj o = some x) : o < w.objs.length := by
  simp only [obj] at h
  rcases Nat.lt_or_ge o w.objs.length with h' | h'
  · exact h'
  · simp [List.getElem?_eq_none h'] at h

theorem obj_put {w : World} {o : Nat} {x : Obj} (h : w.obj o = some x) (y : Option Obj) (k : Nat) :
    (w.put o y).obj k = if k = o then y else w.obj k := by
  have hl := obj_lt h
  simp only [obj, put, List.getElem?_set]
  by_cases e : k = o
  · subst e; simp [hl]
  · have : ¬ o = k := fun h => e h.symm
    simp [e, this]

theorem body_put {w : World} {o : Nat} {x : Obj} (h : w.obj o = some x) (y : Option Obj) :
    (w.put o y).body = upd w.body o (y.map Obj.body) := by
  funext k
  simp only [body, obj_put h, upd]
  split <;> rfl

theorem rcOf_put {w : World} {o : Nat} {x : Obj} (h : w.obj o = some x) (y : Option Obj) (k : Nat) :
    (w.put o y).rcOf k = if k = o then (y.map Obj.rc).getD 0 else w.rcOf k := by
  simp only [rcOf, obj_put h]
  split <;> rfl

theorem links_put {w : World} {o : Nat} {x : Obj} (h : w.obj o = some x) (y : Option Obj) (k : Nat) :
    (w.put o y).links k + (if x.body.link = some k then 1 else 0) =
      w.links k + (if y.bind (·.body.link) = some k then 1 else 0) := by
  have hl := obj_lt h
  have hx : w.objs[o] = some x := by
    simp only [obj, List.getElem?_eq_getElem hl, Option.join_some] at h
    exact h
  simp only [links, put]
  rw [List.countP_set hl]
  simp only [hx, holdsRef, beq_iff_eq, Option.bind_some]
  have hpos : x.body.link = some k → 0 < w.objs.countP (holdsRef k) := by
    intro hk
    rw [List.countP_pos_iff]
    exact ⟨some x, hx ▸ List.getElem_mem hl, by simp [holdsRef, hk]⟩
  by_cases hk : x.body.link = some k
  · have := hpos hk
    simp only [hk, if_true]
    omega
  · simp only [hk, if_false]
    omega

theorem obj_new (w : World) (b : Body) (k : Nat) :
    (w.new b).1.obj k = if k = w.objs.length then some ⟨1, b⟩ else w.obj k := by
  simp only [obj, new, List.getElem?_append]
  split
  · have : k ≠ w.objs.length := by omega
    simp [this]
  · rename_i h
    by_cases e : k = w.objs.length
    · subst e; simp
    · have : k - w.objs.length ≠ 0 := by omega
      obtain ⟨i, hi⟩ := Nat.exists_eq_succ_of_ne_zero this
      simp [hi, e, List.getElem?_eq_none (by omega : w.objs.length ≤ k)]

theorem obj_length (w : World) : w.obj w.objs.length = none := by simp [obj]

theorem body_new (w : World) (b : Body) : (w.new b).1.body = upd w.body w.objs.length (some b) := by
  funext k
  simp only [body, obj_new, upd]
  split <;> rfl

theorem rcOf_new (w : World) (b : Body) (k : Nat) :
    (w.new b).1.rcOf k = if k = w.objs.length then 1 else w.rcOf k := by
  simp only [rcOf, obj_new]
  split <;> rfl

theorem links_new (w : World) (b : Body) (k : Nat) :
    (w.new b).1.links k = w.links k + (if b.link = some k then 1 else 0) := by
  simp only [links, new, List.countP_append, List.countP_cons, List.countP_nil, holdsRef, Option.bind_some, beq_iff_eq]
  simp only [Nat.zero_add]

/-- The counts are right. -/
structure Counted (w : World) : Prop where
  count : ∀ o, w.rcOf o = w.vars.count o + w.links o
  pos : ∀ o x, w.obj o = some x → 0 < x.rc
  link : ∀ o x q, w.body o = some x → x.link = some q → ∃ d f, w.body q = some (.doc d f)

theorem rcOf_obj {w : World} {o : Nat} {x : Obj} (h : w.obj o = some x) : w.rcOf o = x.rc := by simp [rcOf, h]

theorem body_obj {w : World} {o : Nat} {x : Obj} (h : w.obj o = some x) : w.body o = some x.body := by simp [body, h]

theorem obj_of_body {w : World} {o : Nat} {b : Body} (h : w.body o = some b) : ∃ x, w.obj o = some x ∧ x.body = b := by
  simpa [body] using h

/-- A variable holds an object that is there. -/
theorem Counted.held {w : World} (h : Counted w) {o : Nat} (ho : o ∈ w.vars) : ∃ x, w.obj o = some x := by
  cases hx : w.obj o with
  | some x => exact ⟨x, rfl⟩
  | none =>
    have := h.count o
    have h0 : w.rcOf o = 0 := by simp [rcOf, hx]
    have := List.count_pos_iff.2 ho
    omega

/-- An object that an object holds a reference to is linked. -/
theorem links_pos {w : World} {o q : Nat} {x : Body} (h : w.body o = some x) (hq : x.link = some q) : 0 < w.links q := by
  obtain ⟨y, hy, rfl⟩ := obj_of_body h
  have hl := obj_lt hy
  simp only [links, List.countP_pos_iff]
  refine ⟨some y, ?_, by simp [holdsRef, hq]⟩
  have : w.objs[o] = some y := by
    simp only [obj, List.getElem?_eq_getElem hl, Option.join_some] at hy
    exact hy
  exact this ▸ List.getElem_mem hl

theorem exists_link {w : World} {q : Nat} (h : 0 < w.links q) : ∃ o x, w.body o = some x ∧ x.link = some q := by
  simp only [links, List.countP_pos_iff] at h
  obtain ⟨a, ha, hq⟩ := h
  obtain ⟨o, ho⟩ := List.getElem?_of_mem ha
  cases a with
  | none => simp [holdsRef] at hq
  | some x => exact ⟨o, x.body, by simp [body, obj, ho], by simpa [holdsRef] using hq⟩

/-- A new object, not linked to any. -/
theorem Counted.new {w : World} (h : Counted w) {b : Body} (hb : b.link = none) : Counted (w.new b).1 where
  count := by
    intro o
    have := h.count o
    rw [rcOf_new, links_new]
    simp only [hb]
    by_cases e : o = w.objs.length
    · subst e
      have h0 : w.rcOf w.objs.length = 0 := by simp [rcOf, obj_length]
      simp only [World.new, List.count_cons_self, if_true]
      simp
      omega
    · have e' : ¬ w.objs.length = o := fun h => e h.symm
      simp only [World.new]
      rw [List.count_cons_of_ne e']
      simp [e]
      omega
  pos := by
    intro o x hx
    rw [obj_new] at hx
    split at hx
    · cases hx; exact Nat.one_pos
    · exact h.pos o x hx
  link := by
    intro o x q hx hq
    rw [body_new] at hx ⊢
    rcases upd_some hx with ⟨_, e⟩ | ⟨_, e⟩
    · cases e; rw [hb] at hq; cases hq
    · obtain ⟨d, f, hd⟩ := h.link o x q e hq
      have : q ≠ w.objs.length := fun e => by
        rw [e] at hd
        simp [body, obj_length] at hd
      exact ⟨d, f, by rw [upd_ne _ _ this]; exact hd⟩

/-- One more reference to an object by an object that is new. -/
theorem Counted.newLinked {w w' : World} (h : Counted w) {b : Body} {q d : Nat} {f : Bool} (hb : b.link = some q)
    (hq : w.body q = some (.doc d f)) (hi : (w.new b).1.incref q = some w') :
    Counted w' ∧ w'.body = upd w.body w.objs.length (some b) ∧ w'.mem = w.mem := by
  obtain ⟨x, hx, hxb⟩ := obj_of_body hq
  have hlt := obj_lt hx
  have ne : q ≠ w.objs.length := by omega
  have hx' : (w.new b).1.obj q = some x := by rw [obj_new]; simp [ne, hx]
  simp only [incref, hx', Option.bind_eq_bind, Option.bind_some, Option.some.injEq] at hi
  subst hi
  have hbody : ((w.new b).1.put q (some { x with rc := x.rc + 1 })).body = upd w.body w.objs.length (some b) := by
    rw [body_put hx', body_new]
    funext k
    simp only [upd]
    split
    · rename_i e
      subst e
      simp [ne, hq, hxb]
    · rfl
  refine ⟨?_, hbody, rfl⟩
  constructor
  · intro o
    have hc := h.count o
    have hl := links_put hx' (some { x with rc := x.rc + 1 }) o
    rw [rcOf_put hx']
    rw [links_new] at hl
    simp only [Option.bind_some, hb] at hl
    have hv : ((w.new b).1.put q (some { x with rc := x.rc + 1 })).vars.count o =
        w.vars.count o + if o = w.objs.length then 1 else 0 := by
      simp only [put, World.new, List.count_cons]
      congr 1
      by_cases e : o = w.objs.length
      · simp [e]
      · have e' : ¬ w.objs.length = o := fun h => e h.symm
        simp [e, e']
    rw [hv]
    by_cases e : o = q
    · subst e
      have hr := rcOf_obj hx
      simp only [if_true, Option.map_some, Option.getD_some, ne, if_false] at hl ⊢
      omega
    · have e' : ¬ (some q = some o) := fun h => e (Option.some.inj h).symm
      simp only [e, e', if_false] at hl ⊢
      rw [rcOf_new]
      by_cases e2 : o = w.objs.length
      · have h0 : w.rcOf o = 0 := by rw [e2]; simp [rcOf, obj_length]
        simp only [e2, if_true] at *
        omega
      · simp only [e2, if_false]
        omega
  · intro o y hy
    rw [obj_put hx'] at hy
    split at hy
    · cases hy; exact Nat.succ_pos _
    · rw [obj_new] at hy
      split at hy
      · cases hy; exact Nat.one_pos
      · exact h.pos o y hy
  · intro o y q' hy hq'
    rw [hbody] at hy ⊢
    have old : ∀ q' d f, w.body q' = some (.doc d f) → ∃ d f, upd w.body w.objs.length (some b) q' = some (.doc d f) := by
      intro q' d f hd
      have : q' ≠ w.objs.length := fun e => by
        rw [e] at hd
        simp [body, obj_length] at hd
      exact ⟨d, f, by rw [upd_ne _ _ this]; exact hd⟩
    rcases upd_some hy with ⟨_, e⟩ | ⟨_, e⟩
    · cases e
      rw [hb] at hq'
      cases hq'
      exact old q d f hq
    · obtain ⟨d, f, hd⟩ := h.link o y q' e hq'
      exact old q' d f hd

/-- An object comes to hold something else, with the same link. -/
theorem Counted.setBody {w w' : World} (h : Counted w) {o : Nat} {x b : Body} (hx : w.body o = some x)
    (hb : b.link = x.link) (hd : ∀ d f, x = .doc d f → ∃ d f, b = .doc d f) (hs : w.setBody o b = some w') :
    Counted w' ∧ w'.body = upd w.body o (some b) ∧ w'.mem = w.mem ∧ w'.vars = w.vars := by
  obtain ⟨y, hy, rfl⟩ := obj_of_body hx
  simp only [World.setBody, hy, Option.bind_eq_bind, Option.bind_some, Option.some.injEq] at hs
  subst hs
  have hbody : (w.put o (some { y with body := b })).body = upd w.body o (some b) := body_put hy _
  refine ⟨?_, hbody, rfl, rfl⟩
  constructor
  · intro k
    have hc := h.count k
    have hl := links_put hy (some { y with body := b }) k
    simp only [Option.bind_some, hb] at hl
    rw [rcOf_put hy]
    show _ = w.vars.count k + _
    by_cases e : k = o
    · subst e
      have := rcOf_obj hy
      simp only [if_true, Option.map_some, Option.getD_some]
      omega
    · simp only [e, if_false]
      omega
  · intro k z hz
    rw [obj_put hy] at hz
    split at hz
    · cases hz; exact h.pos o y hy
    · exact h.pos k z hz
  · intro k z q hz hq
    rw [hbody] at hz ⊢
    have old : ∀ q d f, w.body q = some (.doc d f) → ∃ d f, upd w.body o (some b) q = some (.doc d f) := by
      intro q d f hq
      by_cases e : q = o
      · subst e
        rw [body_obj hy] at hq
        obtain ⟨d, f, rfl⟩ := hd d f (Option.some.inj hq)
        exact ⟨d, f, by simp⟩
      · exact ⟨d, f, by rw [upd_ne _ _ e]; exact hq⟩
    rcases upd_some hz with ⟨_, e⟩ | ⟨_, e⟩
    · cases e
      rw [hb] at hq
      obtain ⟨d, f, hd⟩ := h.link o _ q (body_obj hy) hq
      exact old q d f hd
    · obtain ⟨d, f, hd⟩ := h.link k z q e hq
      exact old q d f hd

/-- Only the objects and the variables matter. -/
theorem Counted.congr {w w' : World} (h : Counted w) (ho : w'.objs = w.objs) (hv : w'.vars = w.vars) : Counted w' := by
  have h1 : ∀ o, w'.obj o = w.obj o := fun o => by simp [obj, ho]
  have h2 : ∀ o, w'.body o = w.body o := fun o => by simp [body, h1]
  constructor
  · intro o
    have := h.count o
    simpa [rcOf, h1, links, ho, hv] using this
  · intro o x hx; rw [h1] at hx; exact h.pos o x hx
  · intro o x q hx hq
    rw [h2] at hx ⊢
    exact h.link o x q hx hq

end World
end Axl.Py
