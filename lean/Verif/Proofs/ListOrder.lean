/-
Ordered lists, the comparison functions of the library, copy and cursors.
-/
import Verif.Proofs.ListRun

namespace Axl
open Spec.Seq
namespace AxlList
variable {α : Type}

/-- Operations that keep a list ordered. -/
def keepsOrder : Op α → Bool
  | .append _ | .prepend _ | .addAt _ _ => false
  | _ => true

theorem order_flip {eq : α → α → Int} (h : IsOrder eq) {a b : α} : eq a b = -1 ↔ eq b a = 1 := by
  have := h.anti a b; omega

theorem addOutcome_sorted {eq : α → α → Int} (ho : IsOrder eq) {x : α} {xs xs' : List α}
    (h : AddOutcome eq x xs xs') (hp : xs.Pairwise (fun a b => eq a b = 1)) :
    xs'.Pairwise (fun a b => eq a b = 1) := by
  cases h with
  | empty => simp
  | alreadyStored => exact hp
  | noPlace => exact hp
  | before hl hy =>
    rename_i l r y
    have hxy : eq x y = 1 := (order_flip ho).1 hy
    simp only [List.pairwise_append, List.pairwise_cons, List.mem_cons] at hp ⊢
    obtain ⟨p1, ⟨p2, p3⟩, p4⟩ := hp
    refine ⟨p1, ⟨?_, p2, p3⟩, ?_⟩
    · rintro b (rfl | hb)
      · exact hxy
      · exact ho.trans _ _ _ hxy (p2 b hb)
    · rintro a ha b (rfl | hb)
      · have := hl a ha
        rcases ho.range a b with h | h | h
        · exact absurd h this.1
        · exact absurd h this.2
        · exact h
      · exact p4 a ha b hb
  | after hr hy =>
    rename_i l r y
    simp only [List.pairwise_append, List.pairwise_cons, List.mem_cons] at hp ⊢
    obtain ⟨p1, ⟨p2, p3⟩, p4⟩ := hp
    have hxr : ∀ z ∈ r, eq x z = 1 := by
      intro z hz
      have := hr z hz
      rcases ho.range z x with h | h | h
      · exact (order_flip ho).1 h
      · exact absurd h this.2
      · exact absurd h this.1
    refine ⟨p1, ⟨?_, hxr, p3⟩, ?_⟩
    · rintro b (rfl | hb)
      · exact hy
      · exact p2 b hb
    · rintro a ha b (rfl | rfl | hb)
      · exact p4 a ha b (Or.inl rfl)
      · exact ho.trans _ _ _ (p4 a ha _ (Or.inl rfl)) hy
      · exact p4 a ha b (Or.inr hb)

theorem leave_elems (s : State α) (o : Option α) (d : Bool) (xs : List α) :
    (s.leave o d xs).elems = s.elems ∨ (s.leave o d xs).elems = xs := by
  cases o with
  | none => left; rfl
  | some x => right; cases d <;> rfl

theorem step_sorted {eq : α → α → Int} (ho : IsOrder eq) {s s' : State α} {op : Op α}
    (h : Step eq s op s') (hk : keepsOrder op = true) (hp : s.elems.Pairwise (fun a b => eq a b = 1)) :
    s'.elems.Pairwise (fun a b => eq a b = 1) := by
  have leave : ∀ (o : Option α) (d : Bool) (xs : List α), xs.Sublist s.elems →
      (s.leave o d xs).elems.Pairwise (fun a b => eq a b = 1) := by
    intro o d xs hs
    rcases leave_elems s o d xs with e | e <;> rw [e]
    · exact hp
    · exact hp.sublist hs
  cases h with
  | added h hne => exact addOutcome_sorted ho h hp
  | notAdded h => exact hp
  | append x => simp [keepsOrder] at hk
  | prepend x => simp [keepsOrder] at hk
  | addAt x p => simp [keepsOrder] at hk
  | takeFirst d => exact leave _ _ _ (List.tail_sublist _)
  | takeLast d => exact leave _ _ _ (List.dropLast_sublist _)
  | takeAt p d => exact leave _ _ _ (List.eraseIdx_sublist _ _)
  | takeAtNeg p d => exact hp
  | take x d => exact leave _ _ _ List.eraseP_sublist

theorem steps_sorted {eq : α → α → Int} (ho : IsOrder eq) {s s' : State α} {ops : List (Op α)}
    (h : Steps eq s ops s') (hk : ∀ op ∈ ops, keepsOrder op = true)
    (hp : s.elems.Pairwise (fun a b => eq a b = 1)) : s'.elems.Pairwise (fun a b => eq a b = 1) := by
  induction h with
  | nil => exact hp
  | cons hs _ ih =>
    exact ih (fun op hop => hk op (by simp [hop])) (step_sorted ho hs (hk _ (by simp)) hp)

theorem addOutcome_mem {eq : α → α → Int} {x : α} {xs xs' : List α} (h : AddOutcome eq x xs xs') :
    (∀ y ∈ xs, y ∈ xs') ∧ ∀ y ∈ xs', y = x ∨ y ∈ xs := by
  cases h with
  | empty => simp
  | alreadyStored => exact ⟨fun y hy => hy, fun y hy => Or.inr hy⟩
  | noPlace => exact ⟨fun y hy => hy, fun y hy => Or.inr hy⟩
  | before =>
    constructor <;> intro y hy <;> simp at hy ⊢ <;> grind
  | after =>
    constructor <;> intro y hy <;> simp at hy ⊢ <;> grind

theorem addOutcome_found {eq : α → α → Int} (ho : IsOrder eq) {x : α} {xs xs' : List α}
    (h : AddOutcome eq x xs xs') : ∃ y ∈ xs', eq y x = 0 := by
  cases h with
  | empty => exact ⟨x, by simp, ho.refl x⟩
  | alreadyStored hy h0 => exact ⟨_, hy, h0⟩
  | noPlace hne h =>
    cases xs with
    | nil => exact absurd rfl hne
    | cons a t =>
      have := h a (by simp)
      rcases ho.range a x with e | e | e
      · exact absurd e this.1
      · exact absurd e this.2.1
      · exact absurd e this.2.2
  | before => exact ⟨x, by simp, ho.refl x⟩
  | after => exact ⟨x, by simp, ho.refl x⟩

theorem steps_adds {eq : α → α → Int} (ho : IsOrder eq) (xs : List α) {s s' : State α}
    (h : Steps eq s (xs.map Op.add) s') :
    (∀ y ∈ s.elems, y ∈ s'.elems) ∧ (∀ y ∈ s'.elems, y ∈ s.elems ∨ y ∈ xs) ∧
    ∀ x ∈ xs, ∃ y ∈ s'.elems, eq y x = 0 := by
  induction xs generalizing s with
  | nil => cases h; exact ⟨fun y hy => hy, fun y hy => Or.inl hy, by simp⟩
  | cons x xs ih =>
    cases h with
    | cons hs hss =>
      rename_i s1
      obtain ⟨i1, i2, i3⟩ := ih hss
      have hout : AddOutcome eq x s.elems s1.elems := by
        cases hs with
        | added h _ => exact h
        | notAdded h => exact h
      obtain ⟨m1, m2⟩ := addOutcome_mem hout
      refine ⟨fun y hy => i1 y (m1 y hy), ?_, ?_⟩
      · intro y hy
        rcases i2 y hy with h | h
        · rcases m2 y h with rfl | h
          · right; simp
          · exact Or.inl h
        · right; simp [h]
      · intro z hz
        simp only [List.mem_cons] at hz
        rcases hz with rfl | hz
        · obtain ⟨y, hy, e⟩ := addOutcome_found ho hout
          exact ⟨y, i1 y hy, e⟩
        · exact i3 z hz

/-! ### Comparison functions -/

theorem isOrder_equalInt : IsOrder equalInt where
  range a b := by unfold equalInt; split <;> (try split) <;> omega
  refl a := by simp [equalInt]
  anti a b := by unfold equalInt; split <;> split <;> (try split) <;> (try split) <;> omega
  trans a b c := by
    unfold equalInt; intro h1 h2
    split at h1
    · omega
    · split at h1
      · omega
      · split at h2
        · omega
        · split at h2
          · omega
          · rw [if_neg (by omega), if_neg (by omega)]
  congr a b c h := by
    unfold equalInt at h
    split at h
    · rename_i e; rw [e]
    · split at h <;> omega

theorem char_toNat_inj {a b : Char} (h : a.toNat = b.toNat) : a = b := by
  exact Char.toNat_inj.1 h

theorem strcmp_range (a b : List Char) : strcmp a b = -1 ∨ strcmp a b = 0 ∨ strcmp a b = 1 := by
  induction a generalizing b with
  | nil => cases b <;> simp [strcmp]
  | cons x a ih =>
    cases b with
    | nil => simp [strcmp]
    | cons y b =>
      simp only [strcmp]
      split
      · exact ih b
      · split <;> simp

theorem strcmp_eq_zero {a b : List Char} : strcmp a b = 0 ↔ a = b := by
  induction a generalizing b with
  | nil => cases b <;> simp [strcmp]
  | cons x a ih =>
    cases b with
    | nil => simp [strcmp]
    | cons y b =>
      simp only [strcmp]
      split
      · rename_i e; simp [e, ih]
      · rename_i e; split <;> simp [e]

theorem strcmp_anti (a b : List Char) : strcmp a b = -(strcmp b a) := by
  induction a generalizing b with
  | nil => cases b <;> simp [strcmp]
  | cons x a ih =>
    cases b with
    | nil => simp [strcmp]
    | cons y b =>
      simp only [strcmp]
      by_cases e : x = y
      · simp [e, ih b]
      · have hne : x.toNat ≠ y.toNat := fun h => e (char_toNat_inj h)
        rw [if_neg e, if_neg (fun h : y = x => e h.symm)]
        by_cases hlt : x.toNat < y.toNat
        · rw [if_pos hlt, if_neg (by omega)]
        · rw [if_neg hlt, if_pos (by omega)]; rfl

theorem strcmp_trans {a b c : List Char} (h1 : strcmp a b = -1) (h2 : strcmp b c = -1) : strcmp a c = -1 := by
  induction a generalizing b c with
  | nil =>
    cases c with
    | nil => cases b <;> simp [strcmp] at h1 h2
    | cons => simp [strcmp]
  | cons x a ih =>
    cases b with
    | nil => simp [strcmp] at h1
    | cons y b =>
      cases c with
      | nil => simp [strcmp] at h2
      | cons z c =>
        simp only [strcmp] at h1 h2 ⊢
        by_cases e1 : x = y
        · subst e1
          by_cases e2 : x = z
          · subst e2
            simp only [if_true] at h1 h2 ⊢
            exact ih h1 h2
          · rw [if_neg e2] at h2 ⊢
            exact h2
        · by_cases e2 : y = z
          · subst e2
            rw [if_neg e1] at h1 ⊢
            exact h1
          · rw [if_neg e1] at h1
            rw [if_neg e2] at h2
            split at h1
            · split at h2
              · have : x ≠ z := by
                  intro e; subst e; omega
                rw [if_neg this, if_pos (by omega)]
              · omega
            · omega

theorem orderString_eq (a b : List Char) : orderString a b = -(strcmp a b) := by
  unfold orderString
  rcases strcmp_range a b with h | h | h <;> simp [h]

theorem isOrder_orderString : IsOrder orderString where
  range a b := by rw [orderString_eq]; rcases strcmp_range a b with h | h | h <;> omega
  refl a := by rw [orderString_eq, strcmp_eq_zero.2 rfl]; rfl
  anti a b := by rw [orderString_eq, orderString_eq, strcmp_anti a b]
  trans a b c h1 h2 := by
    rw [orderString_eq] at *
    have := strcmp_trans (a := a) (b := b) (c := c) (by omega) (by omega)
    omega
  congr a b c h := by
    rw [orderString_eq] at h
    have : a = b := strcmp_eq_zero.1 (by omega)
    rw [this]

/-! ### exists on ordered lists -/

theorem scanFrom_sorted {eq : α → α → Int} (ho : IsOrder eq) (x : α) (xs : List α)
    (hp : xs.Pairwise (fun a b => eq a b = 1)) : scanFrom eq x xs = true ↔ ∃ y ∈ xs, eq y x = 0 := by
  induction xs with
  | nil => simp [scanFrom]
  | cons y t ih =>
    simp only [List.pairwise_cons] at hp
    simp only [scanFrom, List.mem_cons, exists_eq_or_imp]
    rcases ho.range y x with h | h | h
    · simp only [h]
      constructor
      · simp
      · rintro (h' | ⟨z, hz, hz0⟩)
        · simp at h'
        · have h1 := hp.1 z hz
          have h2 := ho.congr z x y hz0
          have h3 := ho.anti x y
          have h4 := ho.anti z y
          omega
    · simp [h]
    · simp [h, ih hp.2]

theorem existsAnswer_sorted {eq : α → α → Int} (ho : IsOrder eq) (x : α) (xs : List α)
    (hp : xs.Pairwise (fun a b => eq a b = 1)) : existsAnswer eq x xs = true ↔ ∃ y ∈ xs, eq y x = 0 := by
  cases xs with
  | nil => simp [existsAnswer]
  | cons y t =>
    have hp' := hp
    have hsc := scanFrom_sorted ho x (y :: t) hp
    simp only [List.pairwise_cons] at hp
    simp only [existsAnswer]
    by_cases h0 : eq y x = 0
    · simp [h0]
    · by_cases h1 : eq y x = 1
      · rw [if_neg h0, if_pos h1]
        have hsc' : scanFrom eq x t = true ↔ ∃ z ∈ y :: t, eq z x = 0 := by
          rw [← hsc]; simp [scanFrom, h1]
        have hlm : (y :: t).getLast (by simp) ∈ y :: t := List.getLast_mem _
        have hlast : ∀ z ∈ y :: t, z = (y :: t).getLast (by simp) ∨ eq z ((y :: t).getLast (by simp)) = 1 := by
          generalize hg : (y :: t).getLast (by simp) = w
          have hd := List.dropLast_concat_getLast (l := y :: t) (by simp)
          rw [hg] at hd
          intro z hz
          rw [← hd] at hz hp'
          simp only [List.mem_append, List.mem_singleton] at hz
          rcases hz with hz | hz
          · right
            exact (List.pairwise_append.1 hp').2.2 z hz w (by simp)
          · exact Or.inl hz
        generalize (y :: t).getLast (by simp) = w at hlm hlast ⊢
        by_cases g1 : eq w x = -1
        · rw [if_pos g1]; exact hsc'
        · by_cases g0 : eq w x = 0
          · rw [if_neg g1, if_pos g0]
            exact ⟨fun _ => ⟨w, hlm, g0⟩, fun _ => rfl⟩
          · rw [if_neg g1, if_neg g0]
            have gw : eq w x = 1 := by have := ho.range w x; omega
            constructor
            · simp
            · rintro ⟨z, hz, hz0⟩
              rcases hlast z hz with rfl | h
              · exact absurd hz0 g0
              · have h2 := ho.congr z x w hz0
                have h3 := ho.anti x w
                omega
      · rw [if_neg h0, if_neg h1]
        have hsc' : scanFrom eq x (y :: t) = false := by simp [scanFrom, h0, h1]
        rw [← hsc, hsc']

theorem scanFrom_sound {eq : α → α → Int} {x : α} {xs : List α} (h : scanFrom eq x xs = true) :
    ∃ y ∈ xs, eq y x = 0 := by
  induction xs with
  | nil => simp [scanFrom] at h
  | cons y t ih =>
    simp only [scanFrom] at h
    split at h
    · exact ⟨y, by simp, by assumption⟩
    · split at h
      · obtain ⟨z, hz, h0⟩ := ih h
        exact ⟨z, by simp [hz], h0⟩
      · simp at h

theorem existsAnswer_sound {eq : α → α → Int} {x : α} {xs : List α} (h : existsAnswer eq x xs = true) :
    ∃ y ∈ xs, eq y x = 0 := by
  cases xs with
  | nil => simp [existsAnswer] at h
  | cons y t =>
    simp only [existsAnswer] at h
    split at h
    · exact ⟨y, by simp, by assumption⟩
    · split at h
      · split at h
        · obtain ⟨z, hz, h0⟩ := scanFrom_sound h
          exact ⟨z, by simp [hz], h0⟩
        · split at h
          · exact ⟨_, List.getLast_mem (by simp), by assumption⟩
          · simp at h
      · simp at h

/-! ### copy -/

theorem run_append (l : AxlList α) (a b : List (Op α)) :
    l.run (a ++ b) = (l.run a).bind (fun l => l.run b) := by
  induction a generalizing l with
  | nil => rfl
  | cons op a ih =>
    simp only [List.cons_append, run, Option.bind_eq_bind]
    cases l.exec op with
    | none => rfl
    | some l1 => simpa using ih l1

theorem copyLoop_spec {l : AxlList α} {ns : List (Nat × α)} (h : Rep l ns) (func : Option (α → α))
    (k i : Nat) (hk : i + k = ns.length) (res : AxlList α) :
    copyLoop l func k i res =
      res.run ((((ns.map Prod.snd).drop i).map (func.getD id)).map Op.add) := by
  induction k generalizing i res with
  | zero =>
    rw [List.drop_of_length_le (by simp; omega)]
    rfl
  | succ k ih =>
    have hlt : i < (ns.map Prod.snd).length := by simp; omega
    rw [List.drop_eq_getElem_cons hlt]
    have hn : l.getNth (i : Int) = some (some (ns.map Prod.snd)[i]) := by
      rw [getNth_spec h, if_neg (by omega)]
      have : ((i : Int)).toNat = i := by simp
      rw [this, List.getElem?_eq_getElem hlt]
    simp only [copyLoop, hn, Option.bind_eq_bind, Option.bind_some, List.map_cons, run, exec]
    have ih' := ih (i + 1) (by omega)
    clear ih
    cases func with
    | none =>
      simp only [Option.getD_none, id_eq]
      cases res.add (ns.map Prod.snd)[i] with
      | none => rfl
      | some r => exact ih' r
    | some f =>
      simp only [Option.getD_some]
      cases res.add (f (ns.map Prod.snd)[i]) with
      | none => rfl
      | some r => exact ih' r

theorem copy_spec {l : AxlList α} {ns : List (Nat × α)} (h : Rep l ns) (func : Option (α → α)) :
    l.copy func = (new l.areEqual (if func.isNone then false else l.hasDestroy)).run
      (((ns.map Prod.snd).map (func.getD id)).map Op.add) := by
  unfold copy
  have hl := h.len
  have : l.length.toNat = ns.length := by omega
  rw [this, copyLoop_spec h func ns.length 0 (by omega)]
  simp

theorem addOutcome_append_of_all_one {eq : α → α → Int} {x : α} {xs xs' : List α}
    (h : ∀ y ∈ xs, eq y x = 1) (ho : AddOutcome eq x xs xs') : xs' = xs ++ [x] := by
  cases ho with
  | empty => rfl
  | alreadyStored hy h0 => have := h _ hy; omega
  | noPlace hne hz =>
    cases xs with
    | nil => exact absurd rfl hne
    | cons a t =>
      have h1 := h a (by simp)
      have h2 := hz a (by simp)
      omega
  | before hl hy => rename_i y; have := h y (by simp); omega
  | after hr hy =>
    rename_i l r y
    cases r with
    | nil => simp
    | cons z r =>
      have h1 := h z (by simp)
      have h2 := (hr z (by simp)).1
      omega

/-- Adding elements each of which compares greater than all before it appends them. -/
theorem steps_adds_append {eq : α → α → Int} (xs : List α) {s s' : State α}
    (hp : (s.elems ++ xs).Pairwise (fun a b => eq a b = 1))
    (h : Steps eq s (xs.map Op.add) s') : s'.elems = s.elems ++ xs := by
  induction xs generalizing s with
  | nil => cases h; simp
  | cons x xs ih =>
    cases h with
    | cons hs hss =>
      rename_i s1
      have hout : AddOutcome eq x s.elems s1.elems := by
        cases hs with
        | added h _ => exact h
        | notAdded h => exact h
      have hall : ∀ y ∈ s.elems, eq y x = 1 := by
        intro y hy
        exact (List.pairwise_append.1 hp).2.2 y hy x (by simp)
      have e1 := addOutcome_append_of_all_one hall hout
      have := ih (s := s1) (by rw [e1]; simpa using hp) hss
      rw [this, e1]; simp

theorem addOutcome_prepend {eq : α → α → Int} {x : α} {xs xs' : List α}
    (h : ∀ y ∈ xs, eq y x = -1) (ho : AddOutcome eq x xs xs') : xs' = x :: xs := by
  cases ho with
  | empty => rfl
  | alreadyStored hy h0 => have := h _ hy; omega
  | noPlace hne hz =>
    cases xs with
    | nil => exact absurd rfl hne
    | cons a t =>
      have h1 := h a (by simp)
      have h2 := hz a (by simp)
      omega
  | after hr hy => rename_i y; have := h y (by simp); omega
  | before hl hy =>
    rename_i l r y
    cases l with
    | nil => simp
    | cons z r =>
      have h1 := h z (by simp)
      have h2 := (hl z (by simp)).1
      omega

theorem steps_adds_prepend {eq : α → α → Int} (xs : List α) {s s' : State α}
    (hp : (xs.reverse ++ s.elems).Pairwise (fun a b => eq b a = -1))
    (h : Steps eq s (xs.map Op.add) s') : s'.elems = xs.reverse ++ s.elems := by
  induction xs generalizing s with
  | nil => cases h; simp
  | cons x xs ih =>
    cases h with
    | cons hs hss =>
      rename_i s1
      have hout : AddOutcome eq x s.elems s1.elems := by
        cases hs with
        | added h _ => exact h
        | notAdded h => exact h
      have hall : ∀ y ∈ s.elems, eq y x = -1 := by
        intro y hy
        exact (List.pairwise_append.1 hp).2.2 x (by simp) y hy
      have e1 := addOutcome_prepend hall hout
      have := ih (s := s1) (by rw [e1]; simpa using hp) hss
      rw [this, e1]; simp

/-! ### cursor histories -/

/-- The API call for each cursor operation. -/
def Cursor.exec (c : Cursor α) : CursorOp → Option (Cursor α)
  | .first => some c.toFirst
  | .last => some c.toLast
  | .next => c.next
  | .previous => c.previous
  | .take d => c.remove d

/-- A sequence of cursor calls. -/
def Cursor.run (c : Cursor α) : List CursorOp → Option (Cursor α)
  | [] => some c
  | op :: ops => do let c ← c.exec op; c.run ops

/-- The cursor agrees with the abstract one. -/
structure CAgrees (d : Bool) (base : List α) (c : Cursor α) (s : CursorState α) : Prop where
  rep : ∃ ns, CRep c ns s.pos ∧ ns.map Prod.snd = s.elems
  hasDestroy : c.list.hasDestroy = d
  destroyed : c.list.destroyed = base ++ if d then s.destroyed else []

theorem cexec_spec {d : Bool} {base : List α} {c : Cursor α} {s : CursorState α} (h : CAgrees d base c s)
    (op : CursorOp) : ∃ c', c.exec op = some c' ∧ CAgrees d base c' (s.step op) := by
  obtain ⟨ns, hr, hx⟩ := h.rep
  have hlen : ns.length = s.elems.length := by rw [← hx]; simp
  have hnil : ns = [] ↔ s.elems = [] := by rw [← hx]; simp
  cases op with
  | first =>
    refine ⟨_, rfl, ⟨ns, ?_, hx⟩, ?_, ?_⟩
    · have := toFirst_spec hr; simpa [CursorState.step, hnil] using this
    · simp only [Cursor.toFirst]; split <;> exact h.hasDestroy
    · simp only [Cursor.toFirst]; split <;> exact h.destroyed
  | last =>
    refine ⟨_, rfl, ⟨ns, ?_, hx⟩, h.hasDestroy, h.destroyed⟩
    have := toLast_spec hr; simpa [CursorState.step, hnil, hlen] using this
  | next =>
    obtain ⟨c', h1, h2, h3⟩ := next_spec hr
    refine ⟨c', h1, ⟨ns, ?_, hx⟩, by rw [h2]; exact h.hasDestroy, by rw [h2]; exact h.destroyed⟩
    simpa [CursorState.step, hlen] using h3
  | previous =>
    obtain ⟨c', h1, h2, h3⟩ := previous_spec hr
    refine ⟨c', h1, ⟨ns, ?_, hx⟩, by rw [h2]; exact h.hasDestroy, by rw [h2]; exact h.destroyed⟩
    simpa [CursorState.step, hlen] using h3
  | take dd =>
    obtain ⟨c', ns', h1, h2, h3, h4⟩ := cursorRemove_spec hr dd
    refine ⟨c', h1, ⟨ns', ?_, ?_⟩, by rw [h3.hasDestroy]; exact h.hasDestroy, ?_⟩
    · cases hp : s.pos with
      | none => simpa [CursorState.step, hp] using h4
      | some i => simpa [CursorState.step, hp, hlen] using h4
    · rw [h2, hx]
      cases hp : s.pos <;> simp [CursorState.step, hp]
    · rw [h3.destroyed, h.destroyed, h.hasDestroy, hx]
      cases hp : s.pos with
      | none => simp [CursorState.step, hp]
      | some i => cases dd <;> cases d <;> simp [CursorState.step, hp]

theorem crun_spec {d : Bool} {base : List α} (ops : List CursorOp) {c : Cursor α} {s : CursorState α}
    (h : CAgrees d base c s) :
    ∃ c', c.run ops = some c' ∧ CAgrees d base c' (ops.foldl CursorState.step s) := by
  induction ops generalizing c s with
  | nil => exact ⟨c, rfl, h⟩
  | cons op ops ih =>
    obtain ⟨c1, h1, h2⟩ := cexec_spec h op
    obtain ⟨c2, g1, g2⟩ := ih h2
    exact ⟨c2, by simp [Cursor.run, h1, g1], g2⟩

end AxlList
end Axl
