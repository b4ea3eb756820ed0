/-
Who owns what: every document and every node without parent has exactly one Python object that frees
it, and nothing that an object is about is gone.  What each change does to that.
-/
import Verif.Proofs.PyMem

namespace Axl.Py
open Forest

/-- The node that an object is about. -/
def Body.nodeOf : Body → Option Nat
  | .node n _ _ => n
  | .cursor n _ => n
  | .doc _ _ => none

/-- The document that an object is about. -/
def Body.docOf : Body → Option Nat
  | .doc d _ => some d
  | _ => none

/-- The `axl.Doc` that an object holds a reference to. -/
def Body.link : Body → Option Nat
  | .node _ _ q => q
  | _ => none

/-- The object frees a document or a node. -/
def Body.owner : Body → Bool
  | .doc _ f => f
  | .node (some _) f _ => f
  | _ => false

/-- What the object is about is in memory. -/
def Body.Alive (m : Mem) (x : Body) : Prop :=
  (∀ n, x.nodeOf = some n → n ∈ m.ids) ∧ ∀ d, x.docOf = some d → (m.root d).isSome

/-- The memory is well formed. -/
structure MemOk (m : Mem) : Prop where
  nodup : m.ids.Nodup
  fresh : ∀ n ∈ m.ids, n < m.nextNode
  looseDoc : m.loose.AllDoc (· = none)
  docDoc : ∀ d f, m.root d = some f → f.AllDoc fun e => e = none ∨ e = some d

/-- Everything has one owner. -/
structure Own (m : Mem) (b : Nat → Option Body) : Prop where
  alive : ∀ o x, b o = some x → x.Alive m
  docOwner : ∀ d, (m.root d).isSome → ∃ o, b o = some (.doc d true)
  docOnce : ∀ o o' d, b o = some (.doc d true) → b o' = some (.doc d true) → o = o'
  nodeOwner : ∀ n ∈ m.loose.topIds, ∃ o q, b o = some (.node (some n) true q)
  nodeTop : ∀ o n q, b o = some (.node (some n) true q) → n ∈ m.loose.topIds
  nodeOnce : ∀ o o' n q q', b o = some (.node (some n) true q) → b o' = some (.node (some n) true q') → o = o'

/-- `b` with another value at `o`. -/
def upd (b : Nat → Option Body) (o : Nat) (x : Option Body) : Nat → Option Body := fun k => if k = o then x else b k

@[simp] theorem upd_self (b : Nat → Option Body) (o : Nat) (x : Option Body) : upd b o x o = x := by simp [upd]

theorem upd_ne (b : Nat → Option Body) {o k : Nat} (x : Option Body) (h : k ≠ o) : upd b o x k = b k := by simp [upd, h]

theorem upd_some {b : Nat → Option Body} {o k : Nat} {x : Option Body} {y : Body} (h : upd b o x k = some y) :
    (k = o ∧ x = some y) ∨ (k ≠ o ∧ b k = some y) := by
  simp only [upd] at h
  split at h
  · exact .inl ⟨‹_›, h⟩
  · exact .inr ⟨‹_›, h⟩

/-- Only the documents and the loose nodes matter. -/
theorem MemOk.congr {m m' : Mem} (h : MemOk m) (hl : m'.loose = m.loose) (hr : ∀ d, m'.root d = m.root d)
    (hi : m'.ids = m.ids) (hn : m'.nextNode = m.nextNode) : MemOk m' where
  nodup := hi ▸ h.nodup
  fresh := by rw [hi, hn]; exact h.fresh
  looseDoc := hl ▸ h.looseDoc
  docDoc := by intro d f hf; exact h.docDoc d f (hr d ▸ hf)

theorem Alive.congr {m m' : Mem} {x : Body} (h : x.Alive m) (hr : ∀ d, (m.root d).isSome → (m'.root d).isSome)
    (hi : ∀ n ∈ m.ids, n ∈ m'.ids) : x.Alive m' :=
  ⟨fun n hn => hi n (h.1 n hn), fun d hd => hr d (h.2 d hd)⟩

theorem Own.congr {m m' : Mem} {b : Nat → Option Body} (h : Own m b) (hl : m'.loose = m.loose)
    (hr : ∀ d, m'.root d = m.root d) : Own m' b where
  alive := by
    intro o x hx
    refine Alive.congr (h.alive o x hx) (fun d hd => by rw [hr]; exact hd) fun n hn => ?_
    rw [Mem.mem_ids] at hn ⊢
    simpa [hl, hr] using hn
  docOwner := by intro d hd; rw [hr] at hd; exact h.docOwner d hd
  docOnce := h.docOnce
  nodeOwner := by rw [hl]; exact h.nodeOwner
  nodeTop := by rw [hl]; exact h.nodeTop
  nodeOnce := h.nodeOnce

/-- A new object that owns nothing, or an object that owns nothing and comes to be another such. -/
theorem Own.set {m : Mem} {b : Nat → Option Body} (h : Own m b) {o : Nat} {x : Body}
    (hb : ∀ y, b o = some y → y.owner = false) (hx : x.Alive m) (ho : x.owner = false) : Own m (upd b o (some x)) where
  alive := by
    intro k y hy
    rcases upd_some hy with ⟨_, e⟩ | ⟨_, e⟩
    · cases e; exact hx
    · exact h.alive k y e
  docOwner := by
    intro d hd
    obtain ⟨k, hk⟩ := h.docOwner d hd
    have : k ≠ o := fun e => by have := hb _ (e ▸ hk); cases this
    exact ⟨k, by rw [upd_ne _ _ this]; exact hk⟩
  docOnce := by
    intro k k' d hk hk'
    rcases upd_some hk with ⟨_, e⟩ | ⟨_, e⟩
    · cases e; cases ho
    · rcases upd_some hk' with ⟨_, e'⟩ | ⟨_, e'⟩
      · cases e'; cases ho
      · exact h.docOnce k k' d e e'
  nodeOwner := by
    intro n hn
    obtain ⟨k, q, hk⟩ := h.nodeOwner n hn
    have : k ≠ o := fun e => by have := hb _ (e ▸ hk); cases this
    exact ⟨k, q, by rw [upd_ne _ _ this]; exact hk⟩
  nodeTop := by
    intro k n q hk
    rcases upd_some hk with ⟨_, e⟩ | ⟨_, e⟩
    · cases e; cases ho
    · exact h.nodeTop k n q e
  nodeOnce := by
    intro k k' n q q' hk hk'
    rcases upd_some hk with ⟨_, e⟩ | ⟨_, e⟩
    · cases e; cases ho
    · rcases upd_some hk' with ⟨_, e'⟩ | ⟨_, e'⟩
      · cases e'; cases ho
      · exact h.nodeOnce k k' n q q' e e'

/-- An object that owns nothing goes away. -/
theorem Own.unset {m : Mem} {b : Nat → Option Body} (h : Own m b) {o : Nat}
    (hb : ∀ y, b o = some y → y.owner = false) : Own m (upd b o none) where
  alive := by
    intro k y hy
    rcases upd_some hy with ⟨_, e⟩ | ⟨_, e⟩
    · cases e
    · exact h.alive k y e
  docOwner := by
    intro d hd
    obtain ⟨k, hk⟩ := h.docOwner d hd
    have : k ≠ o := fun e => by have := hb _ (e ▸ hk); cases this
    exact ⟨k, by rw [upd_ne _ _ this]; exact hk⟩
  docOnce := by
    intro k k' d hk hk'
    rcases upd_some hk with ⟨_, e⟩ | ⟨_, e⟩
    · cases e
    · rcases upd_some hk' with ⟨_, e'⟩ | ⟨_, e'⟩
      · cases e'
      · exact h.docOnce k k' d e e'
  nodeOwner := by
    intro n hn
    obtain ⟨k, q, hk⟩ := h.nodeOwner n hn
    have : k ≠ o := fun e => by have := hb _ (e ▸ hk); cases this
    exact ⟨k, q, by rw [upd_ne _ _ this]; exact hk⟩
  nodeTop := by
    intro k n q hk
    rcases upd_some hk with ⟨_, e⟩ | ⟨_, e⟩
    · cases e
    · exact h.nodeTop k n q e
  nodeOnce := by
    intro k k' n q q' hk hk'
    rcases upd_some hk with ⟨_, e⟩ | ⟨_, e⟩
    · cases e
    · rcases upd_some hk' with ⟨_, e'⟩ | ⟨_, e'⟩
      · cases e'
      · exact h.nodeOnce k k' n q q' e e'

/-- A new document. -/
theorem MemOk.newDoc {m : Mem} (h : MemOk m) {f : Forest} {k : Nat} (hk : m.nextNode ≤ k)
    (hf : f.ids.Nodup) (hi : ∀ n ∈ f.ids, m.nextNode ≤ n ∧ n < k) (hd : f.AllDoc (· = some m.docs.length)) :
    MemOk { m with docs := m.docs ++ [some f], nextNode := k } where
  nodup := by
    rw [Mem.ids_append_doc, List.nodup_append]
    refine ⟨h.nodup, hf, ?_⟩
    intro a ha c hc e
    have := h.fresh a ha
    have := (hi c hc).1
    omega
  fresh := by
    intro n hn
    rw [Mem.ids_append_doc, List.mem_append] at hn
    rcases hn with hn | hn
    · have := h.fresh n hn
      show n < k
      omega
    · exact (hi n hn).2
  looseDoc := h.looseDoc
  docDoc := by
    intro d g hg
    rw [Mem.root_append] at hg
    split at hg
    · rename_i e
      cases hg
      subst e
      exact hd.imp fun e he => .inr he
    · exact h.docDoc d g hg

theorem Own.newDoc {m : Mem} {b : Nat → Option Body} (h : Own m b) {o k : Nat} {f : Forest}
    (ho : b o = none) : Own { m with docs := m.docs ++ [some f], nextNode := k } (upd b o (some (.doc m.docs.length true))) where
  alive := by
    intro p y hy
    rcases upd_some hy with ⟨_, e⟩ | ⟨_, e⟩
    · cases e
      constructor
      · intro n hn; cases hn
      · intro d hd
        cases hd
        rw [Mem.root_append]; simp
    · refine Alive.congr (h.alive p y e) (fun d hd => ?_) fun n hn => ?_
      · rw [Mem.root_append]; split
        · rfl
        · exact hd
      · rw [Mem.ids_append_doc]; exact List.mem_append_left _ hn
  docOwner := by
    intro d hd
    rw [Mem.root_append] at hd
    split at hd
    · rename_i e; exact ⟨o, by rw [e]; simp⟩
    · obtain ⟨p, hp⟩ := h.docOwner d hd
      have : p ≠ o := fun e => by rw [e, ho] at hp; cases hp
      exact ⟨p, by rw [upd_ne _ _ this]; exact hp⟩
  docOnce := by
    have old : ∀ p, b p ≠ some (.doc m.docs.length true) := by
      intro p hp
      obtain ⟨f, hf⟩ := Option.isSome_iff_exists.1 ((h.alive p _ hp).2 _ rfl)
      have := Mem.root_lt hf
      omega
    intro p p' d hp hp'
    rcases upd_some hp with ⟨e1, e⟩ | ⟨_, e⟩
    · cases e
      rcases upd_some hp' with ⟨e2, e'⟩ | ⟨_, e'⟩
      · rw [e1, e2]
      · exact absurd e' (old _)
    · rcases upd_some hp' with ⟨_, e'⟩ | ⟨_, e'⟩
      · cases e'; exact absurd e (old _)
      · exact h.docOnce p p' d e e'
  nodeOwner := by
    intro n hn
    obtain ⟨p, q, hp⟩ := h.nodeOwner n hn
    have : p ≠ o := fun e => by rw [e, ho] at hp; cases hp
    exact ⟨p, q, by rw [upd_ne _ _ this]; exact hp⟩
  nodeTop := by
    intro p n q hp
    rcases upd_some hp with ⟨_, e⟩ | ⟨_, e⟩
    · cases e
    · exact h.nodeTop p n q e
  nodeOnce := by
    intro p p' n q q' hp hp'
    rcases upd_some hp with ⟨_, e⟩ | ⟨_, e⟩
    · cases e
    · rcases upd_some hp' with ⟨_, e'⟩ | ⟨_, e'⟩
      · cases e'
      · exact h.nodeOnce p p' n q q' e e'

/-- A new node. -/
theorem MemOk.newNode {m : Mem} (h : MemOk m) (s : List Char) : MemOk (m.nodeCreate s).1 where
  nodup := by
    simp only [Mem.nodeCreate, Mem.ids_loose, ids_append, Forest.ids, List.append_nil]
    have := h.nodup
    rw [Mem.ids_split] at this
    have hp : (m.loose.ids ++ [m.nextNode] ++ allIds (m.docs.filterMap id)).Perm (m.nextNode :: m.ids) := by
      rw [Mem.ids_split, List.append_assoc]
      exact List.perm_middle
    rw [hp.nodup_iff, List.nodup_cons]
    exact ⟨fun hn => Nat.lt_irrefl _ (h.fresh _ hn), h.nodup⟩
  fresh := by
    intro n hn
    simp only [Mem.nodeCreate, Mem.ids_loose, ids_append, Forest.ids, List.append_nil] at hn ⊢
    have : n ∈ m.ids ∨ n = m.nextNode := by
      rw [Mem.ids_split]
      simp only [List.mem_append, List.mem_singleton] at hn ⊢
      rcases hn with (hn | hn) | hn
      · exact .inl (.inl hn)
      · exact .inr hn
      · exact .inl (.inr hn)
    rcases this with hn | hn
    · have := h.fresh n hn; omega
    · omega
  looseDoc := h.looseDoc.append ⟨rfl, trivial, trivial⟩
  docDoc := h.docDoc

theorem Own.newNode {m : Mem} {b : Nat → Option Body} (hm : MemOk m) (h : Own m b) {o : Nat} (s : List Char)
    (ho : b o = none) : Own (m.nodeCreate s).1 (upd b o (some (.node (some m.nextNode) true none))) := by
  have hids : ∀ n, n ∈ (m.nodeCreate s).1.ids ↔ n ∈ m.ids ∨ n = m.nextNode := by
    intro n
    simp only [Mem.nodeCreate, Mem.ids_loose, ids_append, Forest.ids, List.append_nil]
    rw [Mem.ids_split]
    simp only [List.mem_append, List.mem_singleton]
    constructor
    · rintro ((hn | hn) | hn)
      · exact .inl (.inl hn)
      · exact .inr hn
      · exact .inl (.inr hn)
    · rintro ((hn | hn) | hn)
      · exact .inl (.inl hn)
      · exact .inr hn
      · exact .inl (.inr hn)
  have htop : ∀ n, n ∈ (m.nodeCreate s).1.loose.topIds ↔ n ∈ m.loose.topIds ∨ n = m.nextNode := by
    intro n
    show n ∈ (m.loose.append (node m.nextNode s none nil nil)).topIds ↔ _
    rw [topIds_append, List.mem_append]
    exact or_congr Iff.rfl List.mem_singleton
  have old : ∀ p q, b p ≠ some (.node (some m.nextNode) true q) := by
    intro p q hp
    exact Nat.lt_irrefl _ (hm.fresh _ ((h.alive p _ hp).1 _ rfl))
  exact {
    alive := by
      intro p y hy
      rcases upd_some hy with ⟨_, e⟩ | ⟨_, e⟩
      · cases e
        refine ⟨fun n hn => ?_, fun d hd => by cases hd⟩
        cases hn
        exact (hids _).2 (.inr rfl)
      · exact Alive.congr (h.alive p y e) (fun d hd => hd) fun n hn => (hids n).2 (.inl hn)
    docOwner := by
      intro d hd
      obtain ⟨p, hp⟩ := h.docOwner d hd
      have : p ≠ o := fun e => by rw [e, ho] at hp; cases hp
      exact ⟨p, by rw [upd_ne _ _ this]; exact hp⟩
    docOnce := by
      intro p p' d hp hp'
      rcases upd_some hp with ⟨_, e⟩ | ⟨_, e⟩
      · cases e
      · rcases upd_some hp' with ⟨_, e'⟩ | ⟨_, e'⟩
        · cases e'
        · exact h.docOnce p p' d e e'
    nodeOwner := by
      intro n hn
      rcases (htop n).1 hn with hn | hn
      · obtain ⟨p, q, hp⟩ := h.nodeOwner n hn
        have : p ≠ o := fun e => by rw [e, ho] at hp; cases hp
        exact ⟨p, q, by rw [upd_ne _ _ this]; exact hp⟩
      · exact ⟨o, none, by rw [hn]; simp⟩
    nodeTop := by
      intro p n q hp
      rcases upd_some hp with ⟨_, e⟩ | ⟨_, e⟩
      · cases e; exact (htop _).2 (.inr rfl)
      · exact (htop _).2 (.inl (h.nodeTop p n q e))
    nodeOnce := by
      intro p p' n q q' hp hp'
      rcases upd_some hp with ⟨e1, e⟩ | ⟨_, e⟩
      · cases e
        rcases upd_some hp' with ⟨e2, e'⟩ | ⟨_, e'⟩
        · rw [e1, e2]
        · exact absurd e' (old _ _)
      · rcases upd_some hp' with ⟨_, e'⟩ | ⟨_, e'⟩
        · cases e'; exact absurd e (old _ _)
        · exact h.nodeOnce p p' n q q' e e' }

/-- A document goes away. -/
theorem MemOk.docFree {m : Mem} (h : MemOk m) {d : Nat} {f : Forest} (hd : m.root d = some f) :
    MemOk { m with docs := m.docs.set d none } where
  nodup := by
    have := ((Mem.perm_set hd).nodup_iff.1 h.nodup)
    rw [List.nodup_append] at this
    exact this.2.1
  fresh := by
    intro n hn
    exact h.fresh n ((Mem.perm_set hd).mem_iff.2 (List.mem_append_right _ hn))
  looseDoc := h.looseDoc
  docDoc := by
    intro e g hg
    rw [Mem.root_set (by simp [hd])] at hg
    split at hg
    · cases hg
    · exact h.docDoc e g hg

theorem Own.docFree {m : Mem} {b : Nat → Option Body} (h : Own m b) {o d : Nat} {f : Forest}
    (hd : m.root d = some f) (ho : b o = some (.doc d true))
    (hn : ∀ p y n, p ≠ o → b p = some y → y.nodeOf = some n → n ∉ f.ids)
    (hdoc : ∀ p y, p ≠ o → b p = some y → y.docOf ≠ some d) :
    Own { m with docs := m.docs.set d none } (upd b o none) where
  alive := by
    intro p y hy
    rcases upd_some hy with ⟨_, e⟩ | ⟨ne, e⟩
    · cases e
    · refine ⟨fun n hny => ?_, fun e' he => ?_⟩
      · have := (Mem.perm_set hd).mem_iff.1 ((h.alive p y e).1 n hny)
        exact (List.mem_append.1 this).resolve_left (hn p y n ne e hny)
      · have ne' : e' ≠ d := fun h => hdoc p y ne e (h ▸ he)
        rw [Mem.root_set (by simp [hd]), if_neg ne']
        exact (h.alive p y e).2 e' he
  docOwner := by
    intro e he
    rw [Mem.root_set (by simp [hd])] at he
    split at he
    · cases he
    · rename_i ne
      obtain ⟨p, hp⟩ := h.docOwner e he
      have : p ≠ o := fun h => by rw [h, ho] at hp; cases hp; exact ne rfl
      exact ⟨p, by rw [upd_ne _ _ this]; exact hp⟩
  docOnce := by
    intro p p' d hp hp'
    rcases upd_some hp with ⟨_, e⟩ | ⟨_, e⟩
    · cases e
    · rcases upd_some hp' with ⟨_, e'⟩ | ⟨_, e'⟩
      · cases e'
      · exact h.docOnce p p' d e e'
  nodeOwner := by
    intro n hn
    obtain ⟨p, q, hp⟩ := h.nodeOwner n hn
    have : p ≠ o := fun e => by rw [e, ho] at hp; cases hp
    exact ⟨p, q, by rw [upd_ne _ _ this]; exact hp⟩
  nodeTop := by
    intro p n q hp
    rcases upd_some hp with ⟨_, e⟩ | ⟨_, e⟩
    · cases e
    · exact h.nodeTop p n q e
  nodeOnce := by
    intro p p' n q q' hp hp'
    rcases upd_some hp with ⟨_, e⟩ | ⟨_, e⟩
    · cases e
    · rcases upd_some hp' with ⟨_, e'⟩ | ⟨_, e'⟩
      · cases e'
      · exact h.nodeOnce p p' n q q' e e'

/-- A loose node and what is below it, and the rest. -/
theorem loose_perm {m : Mem} (h : MemOk m) {n : Nat} {t : Forest} (ht : m.loose.sub n = some t) :
    m.ids.Perm (t.ids ++ Mem.ids { m with loose := m.loose.without n }) := by
  have hl : m.loose.ids.Nodup := by
    have := h.nodup
    rw [Mem.ids_split, List.nodup_append] at this
    exact this.1
  rw [Mem.ids_split m, Mem.ids_split { m with loose := m.loose.without n }, ← List.append_assoc]
  exact List.Perm.append_right _ (sub_perm hl ht)

theorem loose_nodup {m : Mem} (h : MemOk m) : m.loose.ids.Nodup := by
  have := h.nodup
  rw [Mem.ids_split, List.nodup_append] at this
  exact this.1

theorem loose_sub {m : Mem} {n : Nat} (hn : n ∈ m.loose.topIds) : ∃ t, m.loose.sub n = some t :=
  Option.isSome_iff_exists.1 ((sub_isSome n m.loose).trans (by simpa using topIds_ids hn))

/-- A loose node goes away. -/
theorem MemOk.without {m : Mem} (h : MemOk m) {n : Nat} (hn : n ∈ m.loose.topIds) :
    MemOk { m with loose := m.loose.without n } := by
  obtain ⟨t, ht⟩ := loose_sub hn
  have hp := loose_perm h ht
  exact {
    nodup := by
      have := hp.nodup_iff.1 h.nodup
      rw [List.nodup_append] at this
      exact this.2.1
    fresh := fun i hi => h.fresh i (hp.mem_iff.2 (List.mem_append_right _ hi))
    looseDoc := h.looseDoc.without n
    docDoc := h.docDoc }

theorem Own.nodeFree {m : Mem} {b : Nat → Option Body} (hm : MemOk m) (h : Own m b) {o n : Nat} {q : Option Nat} {t : Forest}
    (ho : b o = some (.node (some n) true q)) (ht : m.loose.sub n = some t)
    (hn : ∀ p y i, p ≠ o → b p = some y → y.nodeOf = some i → i ∉ t.ids) :
    Own { m with loose := m.loose.without n } (upd b o none) := by
  have htop := h.nodeTop o n q ho
  have hp := loose_perm hm ht
  exact {
    alive := by
      intro p y hy
      rcases upd_some hy with ⟨_, e⟩ | ⟨ne, e⟩
      · cases e
      · refine ⟨fun i hi => ?_, (h.alive p y e).2⟩
        exact (List.mem_append.1 (hp.mem_iff.1 ((h.alive p y e).1 i hi))).resolve_left (hn p y i ne e hi)
    docOwner := by
      intro d hd
      obtain ⟨p, hp⟩ := h.docOwner d hd
      have : p ≠ o := fun e => by rw [e, ho] at hp; cases hp
      exact ⟨p, by rw [upd_ne _ _ this]; exact hp⟩
    docOnce := by
      intro p p' d hp hp'
      rcases upd_some hp with ⟨_, e⟩ | ⟨_, e⟩
      · cases e
      · rcases upd_some hp' with ⟨_, e'⟩ | ⟨_, e'⟩
        · cases e'
        · exact h.docOnce p p' d e e'
    nodeOwner := by
      intro i hi
      obtain ⟨hi, ne⟩ := (mem_topIds_without (loose_nodup hm) htop).1 hi
      obtain ⟨p, q, hp⟩ := h.nodeOwner i hi
      have : p ≠ o := fun e => by rw [e, ho] at hp; cases hp; exact ne rfl
      exact ⟨p, q, by rw [upd_ne _ _ this]; exact hp⟩
    nodeTop := by
      intro p i q' hp
      rcases upd_some hp with ⟨_, e⟩ | ⟨ne, e⟩
      · cases e
      · refine (mem_topIds_without (loose_nodup hm) htop).2 ⟨h.nodeTop p i q' e, fun e' => ?_⟩
        subst e'
        exact ne (h.nodeOnce p o i q' q e ho)
    nodeOnce := by
      intro p p' n q q' hp hp'
      rcases upd_some hp with ⟨_, e⟩ | ⟨_, e⟩
      · cases e
      · rcases upd_some hp' with ⟨_, e'⟩ | ⟨_, e'⟩
        · cases e'
        · exact h.nodeOnce p p' n q q' e e' }

/-- A node that was loose is placed: the nodes stay, the document of its tree is the one of the place,
and its object does not free it any more. -/
theorem Own.place {m m' : Mem} {b : Nat → Option Body} (h : Own m b) {o n : Nat} {q : Option Nat}
    (ho : b o = some (.node (some n) true q)) (hi : ∀ i, i ∈ m'.ids ↔ i ∈ m.ids)
    (hr : ∀ d, (m'.root d).isSome = (m.root d).isSome)
    (ht : ∀ i, i ∈ m'.loose.topIds ↔ i ∈ m.loose.topIds ∧ i ≠ n) :
    Own m' (upd b o (some (.node (some n) false q))) where
  alive := by
    intro p y hy
    rcases upd_some hy with ⟨_, e⟩ | ⟨_, e⟩
    · cases e
      refine ⟨fun i hi' => ?_, fun d hd => by cases hd⟩
      cases hi'
      exact (hi n).2 ((h.alive o _ ho).1 n rfl)
    · exact Alive.congr (h.alive p y e) (fun d hd => by rw [hr]; exact hd) fun i => (hi i).2
  docOwner := by
    intro d hd
    rw [hr] at hd
    obtain ⟨p, hp⟩ := h.docOwner d hd
    have : p ≠ o := fun e => by rw [e, ho] at hp; cases hp
    exact ⟨p, by rw [upd_ne _ _ this]; exact hp⟩
  docOnce := by
    intro p p' d hp hp'
    rcases upd_some hp with ⟨_, e⟩ | ⟨_, e⟩
    · cases e
    · rcases upd_some hp' with ⟨_, e'⟩ | ⟨_, e'⟩
      · cases e'
      · exact h.docOnce p p' d e e'
  nodeOwner := by
    intro i hi
    obtain ⟨hi, ne⟩ := (ht i).1 hi
    obtain ⟨p, q, hp⟩ := h.nodeOwner i hi
    have : p ≠ o := fun e => by rw [e, ho] at hp; cases hp; exact ne rfl
    exact ⟨p, q, by rw [upd_ne _ _ this]; exact hp⟩
  nodeTop := by
    intro p i q' hp
    rcases upd_some hp with ⟨_, e⟩ | ⟨ne, e⟩
    · cases e
    · refine (ht i).2 ⟨h.nodeTop p i q' e, fun e' => ?_⟩
      subst e'
      exact ne (h.nodeOnce p o i q' q e ho)
  nodeOnce := by
    intro p p' n q q' hp hp'
    rcases upd_some hp with ⟨_, e⟩ | ⟨_, e⟩
    · cases e
    · rcases upd_some hp' with ⟨_, e'⟩ | ⟨_, e'⟩
      · cases e'
      · exact h.nodeOnce p p' n q q' e e'

end Axl.Py
