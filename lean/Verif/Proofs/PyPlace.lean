/-
Placing and removing nodes in `Verif.Model.Py`.
-/
import Verif.Proofs.PyDrop

namespace Axl.Py
open Forest

namespace Forest

theorem append_nil (f : Forest) : f.append nil = f := by
  induction f with
  | nil => rfl
  | node n s d k x _ ih => simp [Forest.append, ih]

theorem docOf_append (n : Nat) (f g : Forest) : (f.append g).docOf n = (f.docOf n).or (g.docOf n) := by
  induction f with
  | nil => simp [Forest.append, Forest.docOf]
  | node m s d k x _ ih =>
    simp only [Forest.append, Forest.docOf]
    split
    · simp
    · rw [ih, Option.or_assoc]

theorem docOf_none {n : Nat} {f : Forest} (h : n ∉ f.ids) : f.docOf n = none := by
  have := docOf_isSome n f
  simp only [h, decide_false] at this
  simpa using this

theorem parentOf_none {n : Nat} {f : Forest} {up : Option Nat} (h : n ∉ f.ids) : f.parentOf n up = none := by
  have := parentOf_isSome n f up
  simp only [h, decide_false] at this
  simpa using this

theorem docOf_addKid {n p : Nat} {t f : Forest} (h : n ∉ t.ids) : (f.addKid p t).docOf n = f.docOf n := by
  induction f with
  | nil => rfl
  | node m s d k x ihk ihx =>
    simp only [Forest.addKid]
    split
    · simp only [Forest.docOf, docOf_append, docOf_none h, Option.or_none]
    · simp only [Forest.docOf, ihk, ihx]

theorem docOf_addAfter {n p : Nat} {t f : Forest} (h : n ∉ t.ids) : (f.addAfter p t).docOf n = f.docOf n := by
  induction f with
  | nil => rfl
  | node m s d k x ihk ihx =>
    simp only [Forest.addAfter]
    split
    · simp only [Forest.docOf, docOf_append, docOf_none h, Option.none_or]
    · simp only [Forest.docOf, ihk, ihx]

/-- What is not below a node is looked up as before when the node is taken away. -/
theorem docOf_without {n i : Nat} {f : Forest} (hf : f.ids.Nodup) (h : ∀ t, f.sub n = some t → i ∉ t.ids) :
    (f.without n).docOf i = f.docOf i := by
  induction f with
  | nil => rfl
  | node m s d k x ihk ihx =>
    obtain ⟨hk, hx, hkn, hxn, hd⟩ := nodup_node hf
    simp only [Forest.without, Forest.sub] at h ⊢
    split
    · rename_i e
      have := h _ (by rw [if_pos e])
      simp only [Forest.ids, List.mem_cons, List.mem_append, not_or, List.not_mem_nil] at this
      have e' : ¬ m = i := fun e => this.1 e.symm
      simp only [Forest.docOf, e', if_false, docOf_none this.2.1, Option.none_or]
    · rename_i e
      simp only [e, if_false] at h
      simp only [Forest.docOf]
      rw [ihk hkn fun t ht => h t (by simp [ht])]
      rw [ihx hxn fun t ht => ?_]
      refine h t ?_
      cases hs : k.sub n with
      | none => simpa using ht
      | some t' =>
        exfalso
        have h1 := sub_isSome n k
        have h2 := sub_isSome n x
        rw [hs] at h1
        rw [ht] at h2
        simp at h1 h2
        exact hd n h1 h2

theorem parentOf_without {n i : Nat} {f : Forest} (hf : f.ids.Nodup) : ∀ {up : Option Nat}, (∀ t, f.sub n = some t → i ∉ t.ids) →
    (f.without n).parentOf i up = f.parentOf i up := by
  induction f with
  | nil => intro up _; rfl
  | node m s d k x ihk ihx =>
    intro up h
    obtain ⟨hk, hx, hkn, hxn, hd⟩ := nodup_node hf
    simp only [Forest.without, Forest.sub] at h ⊢
    split
    · rename_i e
      have := h _ (by rw [if_pos e])
      simp only [Forest.ids, List.mem_cons, List.mem_append, not_or, List.not_mem_nil] at this
      have e' : ¬ m = i := fun e => this.1 e.symm
      simp only [Forest.parentOf, e', if_false, parentOf_none this.2.1, Option.none_or]
    · rename_i e
      simp only [e, if_false] at h
      simp only [Forest.parentOf]
      rw [ihk hkn fun t ht => h t (by simp [ht])]
      rw [ihx hxn fun t ht => ?_]
      refine h t ?_
      cases hs : k.sub n with
      | none => simpa using ht
      | some t' =>
        exfalso
        have h1 := sub_isSome n k
        have h2 := sub_isSome n x
        rw [hs] at h1
        rw [ht] at h2
        simp at h1 h2
        exact hd n h1 h2

end Forest

theorem findSome_unique {α : Type} {g : Forest → Option α} {n : Nat} (hg : ∀ f, (g f).isSome = decide (n ∈ f.ids)) :
    ∀ {l : List Forest} {f : Forest}, (allIds l).Nodup → f ∈ l → n ∈ f.ids → l.findSome? g = g f
  | [], _, _, h, _ => by cases h
  | f0 :: l, f, hnd, hf, hn => by
    obtain ⟨_, h2, h3⟩ := nodup_cons_ids hnd
    rcases List.mem_cons.1 hf with e | e
    · subst e
      obtain ⟨a, ha⟩ := Option.isSome_iff_exists.1 ((hg f).trans (by simpa using hn))
      simp [ha]
    · have hnot : n ∉ f0.ids := fun h => h3 n h (mem_allIds.2 ⟨f, e, hn⟩)
      have h0 : g f0 = none := by
        have := hg f0
        simp only [hnot, decide_false] at this
        simpa using this
      simp [h0, findSome_unique hg h2 e hn]

/-- A node is looked up where it is. -/
theorem MemOk.look {α : Type} {g : Forest → Option α} {n : Nat} (hg : ∀ f, (g f).isSome = decide (n ∈ f.ids)) {m : Mem} (h : MemOk m)
    {f : Forest} (hf : f ∈ m.forests) (hn : n ∈ f.ids) : m.look g = g f :=
  findSome_unique hg h.nodup hf hn

/-- The memory after a node without parent is taken. -/
theorem take_ok {m : Mem} (h : MemOk m) {k : Nat} (hk : k ∈ m.loose.topIds) :
    ∃ t, m.look (Forest.sub k) = some t ∧ m.loose.sub k = some t ∧
      m.take k = some (t, { m with loose := m.loose.without k }) ∧ m.ids.Perm (t.ids ++ Mem.ids { m with loose := m.loose.without k }) ∧
      t.AllDoc (· = none) := by
  obtain ⟨t, ht⟩ := loose_sub hk
  have hk' : k ∈ m.loose.tops.map (·.1) := hk
  refine ⟨t, look_loose ht, ht, ?_, loose_perm h ht, h.looseDoc.sub ht⟩
  simp [Mem.take, hk', ht]

/-- What is not below the node taken is looked up as before. -/
theorem look_taken {α : Type} {g : Forest → Option α} {i k : Nat} {m : Mem} {t : Forest} (ht : m.loose.sub k = some t)
    (hi : i ∉ t.ids) (hw : ∀ f : Forest, f = m.loose → (∀ t, f.sub k = some t → i ∉ t.ids) → g (f.without k) = g f) :
    Mem.look { m with loose := m.loose.without k } g = m.look g := by
  simp only [Mem.look, Mem.forests, List.findSome?_cons]
  rw [hw m.loose rfl fun t' ht' => by rw [ht] at ht'; cases ht'; exact hi]

/-- A node becomes the last child of another. -/
theorem setChild_ok {m : Mem} {b : Nat → Option Body} (hm : MemOk m) (h : Own m b) {o k p : Nat} {q : Option Nat}
    (ho : b o = some (.node (some k) true q)) (hp : p ∈ m.ids) (ha : ∀ t, m.look (Forest.sub k) = some t → p ∉ t.ids) :
    ∃ m', m.setChild p k = some m' ∧ MemOk m' ∧ Own m' (upd b o (some (.node (some k) false q))) ∧
      m'.look (Forest.docOf p) = m.look (Forest.docOf p) := by
  obtain ⟨t, ht, hts, htake, hperm, htd⟩ := take_ok hm (h.nodeTop o k q ho)
  have hpt := ha t ht
  have hm1 := hm.without (h.nodeTop o k q ho)
  have hp1 : p ∈ Mem.ids { m with loose := m.loose.without k } := by
    have := hperm.mem_iff.1 hp
    simpa [hpt] using this
  have hlook : Mem.look { m with loose := m.loose.without k } (Forest.docOf p) = m.look (Forest.docOf p) :=
    look_taken hts hpt fun f hf hw => docOf_without (hf ▸ loose_nodup hm) hw
  obtain ⟨d, hd⟩ := Mem.look_some (docOf_isSome p) hp1
  refine ⟨_, by simp [Mem.setChild, htake, hd]; rfl, ?_, ?_, ?_⟩
  · have hp2 := map_addKid_perm (t := t.setDoc d) hm1.nodup hp1
    have hall : (Mem.ids (Mem.map { m with loose := m.loose.without k } fun f => f.addKid p (t.setDoc d))).Perm m.ids := by
      rw [Mem.ids_eq, Mem.forests_map]
      refine hp2.trans ?_
      rw [ids_setDoc]
      exact List.perm_append_comm.trans hperm.symm
    refine ⟨hall.nodup_iff.2 hm.nodup, fun n hn => hm.fresh n (hall.mem_iff.1 hn), ?_, ?_⟩
    · refine hm1.looseDoc.addKid fun hpl => htd.setDoc ?_
      have := loose_docOf hm1 hpl
      rw [hd] at this
      exact Option.some.inj this
    · intro e f hf
      rw [Mem.root_map] at hf
      obtain ⟨f0, hf0, rfl⟩ := Option.map_eq_some_iff.1 hf
      refine (hm1.docDoc e f0 hf0).addKid fun hpf => ?_
      refine (htd.imp fun _ h => .inl h).setDoc ?_
      rw [hm1.look (docOf_isSome p) (Mem.mem_forests.2 (.inr ⟨e, hf0⟩)) hpf] at hd
      exact (hm1.docDoc e f0 hf0).docOf hd
  · refine h.place ho ?_ ?_ ?_
    · intro i
      have hp2 := map_addKid_perm (t := t.setDoc d) hm1.nodup hp1
      rw [Mem.ids_eq, Mem.forests_map, hp2.mem_iff, ids_setDoc, hperm.mem_iff]
      simp [Or.comm, Mem.ids_eq]
    · intro e
      rw [Mem.root_map]
      simp [Mem.root]
    · intro i
      rw [Mem.map_loose, topIds_addKid]
      exact mem_topIds_without (loose_nodup hm) (h.nodeTop o k q ho)
  · rw [← hlook]
    simp only [Mem.look]
    rw [Mem.forests_map, List.findSome?_map]
    congr 1
    funext f
    exact docOf_addKid (by rw [ids_setDoc]; exact hpt)

/-- A node comes after another, that has a parent. -/
theorem setChildAfter_ok {m : Mem} {b : Nat → Option Body} (hm : MemOk m) (h : Own m b) {o k r p : Nat} {q : Option Nat}
    (ho : b o = some (.node (some k) true q)) (hr : m.look (Forest.parentOf r none) = some (some p))
    (ha : ∀ t, m.look (Forest.sub k) = some t → r ∉ t.ids) :
    ∃ m', m.setChildAfter r k = some m' ∧ MemOk m' ∧ Own m' (upd b o (some (.node (some k) false q))) ∧
      m'.look (Forest.docOf r) = m.look (Forest.docOf r) := by
  obtain ⟨t, ht, hts, htake, hperm, htd⟩ := take_ok hm (h.nodeTop o k q ho)
  have hrt := ha t ht
  have hm1 := hm.without (h.nodeTop o k q ho)
  have hri : r ∈ m.ids := by
    have := Mem.look_isSome (fun f => parentOf_isSome r f none) m
    rw [hr] at this
    simpa using this
  have hr1 : r ∈ Mem.ids { m with loose := m.loose.without k } := by
    have := hperm.mem_iff.1 hri
    simpa [hrt] using this
  have hlook : Mem.look { m with loose := m.loose.without k } (Forest.docOf r) = m.look (Forest.docOf r) :=
    look_taken hts hrt fun f hf hw => docOf_without (hf ▸ loose_nodup hm) hw
  have hpar : Mem.look { m with loose := m.loose.without k } (Forest.parentOf r none) = some (some p) := by
    rw [← hr]
    exact look_taken hts hrt fun f hf hw => parentOf_without (hf ▸ loose_nodup hm) hw
  -- the forest with both
  obtain ⟨f1, hf1, hg1⟩ := findSome_mem hpar
  have hrf1 : r ∈ f1.ids := by
    have := parentOf_isSome r f1 none
    rw [hg1] at this
    simpa using this
  have hpf1 : p ∈ f1.ids := by
    rcases parentOf_ids hg1 with e | e
    · exact e
    · cases e
  have hp1 : p ∈ Mem.ids { m with loose := m.loose.without k } := mem_allIds.2 ⟨f1, hf1, hpf1⟩
  obtain ⟨d, hd⟩ := Mem.look_some (docOf_isSome p) hp1
  have hd1 : f1.docOf p = some d := by rw [← hd]; exact (hm1.look (docOf_isSome p) hf1 hpf1).symm
  have huniq : ∀ f ∈ Mem.forests { m with loose := m.loose.without k }, r ∈ f.ids → f.docOf p = some d := by
    intro f hf hrf
    have e1 := hm1.look (fun f => parentOf_isSome r f none) hf hrf
    rw [hpar] at e1
    have hpf : p ∈ f.ids := by
      rcases parentOf_ids e1.symm with e | e
      · exact e
      · cases e
    rw [← hd]
    exact (hm1.look (docOf_isSome p) hf hpf).symm
  refine ⟨_, by simp [Mem.setChildAfter, htake, hpar, hd]; rfl, ?_, ?_, ?_⟩
  · have hp2 := map_addAfter_perm (t := t.setDoc d) hm1.nodup hr1
    have hall : (Mem.ids (Mem.map { m with loose := m.loose.without k } fun f => f.addAfter r (t.setDoc d))).Perm m.ids := by
      rw [Mem.ids_eq, Mem.forests_map]
      refine hp2.trans ?_
      rw [ids_setDoc]
      exact List.perm_append_comm.trans hperm.symm
    refine ⟨hall.nodup_iff.2 hm.nodup, fun n hn => hm.fresh n (hall.mem_iff.1 hn), ?_, ?_⟩
    · refine hm1.looseDoc.addAfter fun hpl => htd.setDoc ?_
      exact hm1.looseDoc.docOf (huniq _ (Mem.mem_forests.2 (.inl rfl)) hpl)
    · intro e f hf
      rw [Mem.root_map] at hf
      obtain ⟨f0, hf0, rfl⟩ := Option.map_eq_some_iff.1 hf
      refine (hm1.docDoc e f0 hf0).addAfter fun hpf => ?_
      refine (htd.imp fun _ h => .inl h).setDoc ?_
      exact (hm1.docDoc e f0 hf0).docOf (huniq _ (Mem.mem_forests.2 (.inr ⟨e, hf0⟩)) hpf)
  · refine h.place ho ?_ ?_ ?_
    · intro i
      have hp2 := map_addAfter_perm (t := t.setDoc d) hm1.nodup hr1
      rw [Mem.ids_eq, Mem.forests_map, hp2.mem_iff, ids_setDoc, hperm.mem_iff]
      simp [Or.comm, Mem.ids_eq]
    · intro e
      rw [Mem.root_map]
      simp [Mem.root]
    · intro i
      rw [Mem.map_loose, topIds_addAfter]
      · exact mem_topIds_without (loose_nodup hm) (h.nodeTop o k q ho)
      · intro hrtop
        have := hm1.look (fun f => parentOf_isSome r f none) (Mem.mem_forests.2 (.inl rfl)) (topIds_ids hrtop)
        rw [hpar] at this
        exact not_top_of_parentOf (loose_nodup hm1) this.symm hrtop
  · rw [← hlook]
    simp only [Mem.look]
    rw [Mem.forests_map, List.findSome?_map]
    congr 1
    funext f
    exact docOf_addAfter (by rw [ids_setDoc]; exact hrt)

/-- A node becomes the root of a document that has none. -/
theorem setRoot_ok {m : Mem} {b : Nat → Option Body} (hm : MemOk m) (h : Own m b) {o k d : Nat} {q : Option Nat}
    (ho : b o = some (.node (some k) true q)) (hd : m.root d = some .nil) :
    ∃ m', m.setRoot d (some k) = some m' ∧ MemOk m' ∧ Own m' (upd b o (some (.node (some k) false q))) := by
  obtain ⟨t, ht, hts, htake, hperm, htd⟩ := take_ok hm (h.nodeTop o k q ho)
  have hm1 := hm.without (h.nodeTop o k q ho)
  have hd1 : Mem.root { m with loose := m.loose.without k } d = some .nil := hd
  have p1 := Mem.perm_set_some (g := t.setDoc (some d)) hd1
  have p2 := Mem.perm_set hd1
  have hall : (Mem.ids { m with docs := m.docs.set d (some (t.setDoc (some d))), loose := m.loose.without k }).Perm m.ids := by
    refine p1.trans ?_
    rw [ids_setDoc]
    refine (List.Perm.append_left _ ?_).trans hperm.symm
    exact p2.symm
  have hroot : ∀ e, Mem.root { m with docs := m.docs.set d (some (t.setDoc (some d))), loose := m.loose.without k } e =
      if e = d then some (t.setDoc (some d)) else m.root e := fun e => Mem.root_set (by rw [hd]; rfl) e
  refine ⟨_, by simp [Mem.setRoot, hd, htake]; rfl, ?_, ?_⟩
  · rw [append_nil]
    refine ⟨hall.nodup_iff.2 hm.nodup, fun n hn => hm.fresh n (hall.mem_iff.1 hn), hm1.looseDoc, ?_⟩
    intro e f hf
    rw [hroot] at hf
    split at hf
    · rename_i e1
      subst e1
      cases hf
      exact (htd.imp fun _ h => .inl h).setDoc (.inr rfl)
    · exact hm.docDoc e f hf
  · rw [append_nil]
    refine h.place ho (fun i => hall.mem_iff) ?_ ?_
    · intro e
      rw [hroot]
      split
      · rename_i e1; subst e1; rw [hd]; rfl
      · rfl
    · intro i
      exact mem_topIds_without (loose_nodup hm) (h.nodeTop o k q ho)

/-- A node is removed, and no other object is about what was removed. -/
theorem nodeRemove_ok {m : Mem} {b : Nat → Option Body} (hm : MemOk m) (h : Own m b) {o n : Nat} {f : Bool} {q : Option Nat}
    (ho : b o = some (.node (some n) f q)) {t : Forest} (ht : m.look (Forest.sub n) = some t)
    (hn : ∀ p y i, p ≠ o → b p = some y → y.nodeOf = some i → i ∉ t.ids) :
    ∃ m', m.nodeRemove n = some m' ∧ MemOk m' ∧ Own m' (upd b o (some (.node none f q))) := by
  have hni : n ∈ m.ids := (h.alive o _ ho).1 n rfl
  obtain ⟨s, hs⟩ := Mem.look_some (nameOf_isSome n) hni
  have hperm := map_without_perm hm.nodup ht
  rw [← Mem.forests_map] at hperm
  have hperm : m.ids.Perm (t.ids ++ (m.map (Forest.without n)).ids) := hperm
  have hnd := hperm.nodup_iff.1 hm.nodup
  have hin : n ∈ t.ids := by
    obtain ⟨f0, _, h0⟩ := findSome_mem ht
    exact mem_sub h0
  have htop : ∀ i, i ∈ (m.map (Forest.without n)).loose.topIds ↔ i ∈ m.loose.topIds ∧ i ≠ n := by
    intro i
    rw [Mem.map_loose]
    by_cases hnt : n ∈ m.loose.topIds
    · exact mem_topIds_without (loose_nodup hm) hnt
    · rw [topIds_without_below hnt]
      exact ⟨fun hi => ⟨hi, fun e => hnt (e ▸ hi)⟩, fun hi => hi.1⟩
  refine ⟨m.map (Forest.without n), by simp [Mem.nodeRemove, hs], ?_, ?_⟩
  · refine ⟨(List.nodup_append.1 hnd).2.1, fun i hi => hm.fresh i (hperm.mem_iff.2 (List.mem_append_right _ hi)), ?_, ?_⟩
    · exact hm.looseDoc.without n
    · intro e f hf
      rw [Mem.root_map] at hf
      obtain ⟨f0, hf0, rfl⟩ := Option.map_eq_some_iff.1 hf
      exact (hm.docDoc e f0 hf0).without n
  · have keep : ∀ p y, p ≠ o → b p = some y → y.Alive (m.map (Forest.without n)) := by
      intro p y hp hy
      refine ⟨fun i hi => ?_, fun d hd => ?_⟩
      · have h1 := (h.alive p y hy).1 i hi
        have h2 := hn p y i hp hy hi
        simpa [h2] using hperm.mem_iff.1 h1
      · rw [Mem.root_map]
        simpa using (h.alive p y hy).2 d hd
    refine ⟨?_, ?_, ?_, ?_, ?_, ?_⟩
    · intro p y hy
      rcases upd_some hy with ⟨_, e⟩ | ⟨hp, e⟩
      · cases e
        exact ⟨nofun, nofun⟩
      · exact keep p y hp e
    · intro d hd
      rw [Mem.root_map] at hd
      obtain ⟨p, hp⟩ := h.docOwner d (by simpa using hd)
      refine ⟨p, ?_⟩
      rw [upd_ne]
      · exact hp
      · intro e; rw [e, ho] at hp; cases hp
    · intro p p' d hp hp'
      rcases upd_some hp with ⟨_, e⟩ | ⟨_, e⟩
      · cases e
      · rcases upd_some hp' with ⟨_, e'⟩ | ⟨_, e'⟩
        · cases e'
        · exact h.docOnce p p' d e e'
    · intro i hi
      obtain ⟨hi, hne⟩ := (htop i).1 hi
      obtain ⟨p, q', hp⟩ := h.nodeOwner i hi
      refine ⟨p, q', ?_⟩
      rw [upd_ne]
      · exact hp
      · intro e; rw [e, ho] at hp; cases hp; exact hne rfl
    · intro p i q' hp
      rcases upd_some hp with ⟨_, e⟩ | ⟨hpo, e⟩
      · cases e
      · refine (htop i).2 ⟨h.nodeTop p i q' e, fun e' => ?_⟩
        exact hn p _ i hpo e rfl (e' ▸ hin)
    · intro p p' i q1 q2 hp hp'
      rcases upd_some hp with ⟨_, e⟩ | ⟨_, e⟩
      · cases e
      · rcases upd_some hp' with ⟨_, e'⟩ | ⟨_, e'⟩
        · cases e'
        · exact h.nodeOnce p p' i q1 q2 e e'

end Axl.Py
