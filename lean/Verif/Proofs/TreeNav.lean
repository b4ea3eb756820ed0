/-
The functions that look at the children of a node answer from the sequence of its child nodes.
-/
import Verif.Proofs.TreeMove
import Verif.Spec.ListApi

namespace Axl.Heap
open Spec.Tree Spec.Tree.Forest

variable {h : Heap} {f : Forest} {ns : Nat → List (Nat × Info)}

theorem nodesOf_append (l r : List Child) : nodesOf (l ++ r) = nodesOf l ++ nodesOf r := by
  induction l with
  | nil => rfl
  | cons c t ih => cases c <;> simp [nodesOf, ih]

theorem nodesOf_split {l : List Child} {xs ys : List Nat} {m : Nat} (h : nodesOf l = xs ++ m :: ys) :
    ∃ l1 l2, l = l1 ++ .node m :: l2 ∧ nodesOf l1 = xs ∧ nodesOf l2 = ys := by
  induction l generalizing xs with
  | nil => simp [nodesOf] at h
  | cons c t ih =>
    cases c with
    | text k s =>
      obtain ⟨l1, l2, e1, e2, e3⟩ := ih (by simpa [nodesOf] using h)
      exact ⟨.text k s :: l1, l2, by simp [e1], by simp [nodesOf, e2], e3⟩
    | node c =>
      cases xs with
      | nil =>
        simp only [nodesOf, List.nil_append, List.cons.injEq] at h
        exact ⟨[], t, by simp [h.1], rfl, h.2⟩
      | cons x xs =>
        simp only [nodesOf, List.cons_append, List.cons.injEq] at h
        obtain ⟨l1, l2, e1, e2, e3⟩ := ih h.2
        exact ⟨.node c :: l1, l2, by simp [e1], by simp [nodesOf, e2, h.1], e3⟩

/-- The nodes in a list of items. -/
def nodesIn (l : List (Nat × Info)) : List Nat := nodesOf (l.map (·.2.data))

@[simp] theorem nodesIn_nil : nodesIn [] = [] := rfl
theorem nodesIn_append (l r : List (Nat × Info)) : nodesIn (l ++ r) = nodesIn l ++ nodesIn r := by
  simp [nodesIn, nodesOf_append]
theorem nodesIn_node {a c : Nat} {i : Info} {t} (h : i.data = .node c) : nodesIn ((a, i) :: t) = c :: nodesIn t := by
  simp [nodesIn, h, nodesOf]
theorem nodesIn_text {a : Nat} {i : Info} {t k s} (h : i.data = .text k s) : nodesIn ((a, i) :: t) = nodesIn t := by
  simp [nodesIn, h, nodesOf]

theorem seekNext_node {test : Child → Option Bool} {t : Nat → Bool} (hx : ∀ k s, test (.text k s) = some false) :
    ∀ (l : List (Nat × Info)) (k : Nat) (p : Option Nat), l.length ≤ k → Seg h.items p l none →
    (∀ c ∈ nodesIn l, test (.node c) = some (t c)) →
    ∃ o, h.seekNext test k (headAddr l none) = some o ∧ h.nodeAt o = some ((nodesIn l).find? t) ∧
      o.isSome = ((nodesIn l).find? t).isSome := by
  intro l
  induction l with
  | nil => intro k p _ _ _; exact ⟨none, by cases k <;> rfl, rfl, rfl⟩
  | cons e l ih =>
    obtain ⟨a, i⟩ := e
    intro k p hk hs ht
    cases k with
    | zero => simp at hk
    | succ k =>
    show ∃ o, h.seekNext test (k + 1) (some a) = some o ∧ _
    cases hi : i.data with
    | text kd s =>
      rw [nodesIn_text hi] at ht ⊢
      obtain ⟨o, e1, e2, e3⟩ := ih k (some a) (by simpa using hk) hs.2 ht
      refine ⟨o, ?_, e2, e3⟩
      simp only [seekNext, hs.1, hi, hx]
      exact e1
    | node c =>
      rw [nodesIn_node hi] at ht ⊢
      have hc := ht c (by simp)
      cases htc : t c with
      | true =>
        refine ⟨some a, ?_, ?_, ?_⟩
        · simp only [seekNext, hs.1, hi, hc, htc]
        · simp [nodeAt, hs.1, hi, htc]
        · simp [htc]
      | false =>
        obtain ⟨o, e1, e2, e3⟩ := ih k (some a) (by simpa using hk) hs.2 (fun d hd => ht d (by simp [hd]))
        refine ⟨o, ?_, ?_, ?_⟩
        · simp only [seekNext, hs.1, hi, hc, htc]
          exact e1
        · simpa [List.find?_cons, htc] using e2
        · simpa [List.find?_cons, htc] using e3

theorem seekPrev_node {test : Child → Option Bool} {t : Nat → Bool} (hx : ∀ k s, test (.text k s) = some false) :
    ∀ (n : Nat) (l : List (Nat × Info)) (k : Nat) (q : Option Nat), l.length = n → n ≤ k → Seg h.items none l q →
    (∀ c ∈ nodesIn l, test (.node c) = some (t c)) →
    ∃ o, h.seekPrev test k (lastAddr l none) = some o ∧ h.nodeAt o = some ((nodesIn l).reverse.find? t) := by
  intro n
  induction n with
  | zero =>
    intro l k q hl _ _ _
    have : l = [] := List.eq_nil_of_length_eq_zero hl
    subst this
    exact ⟨none, by cases k <;> rfl, rfl⟩
  | succ n ih =>
    intro l k q hl hk hs ht
    rcases eq_nil_or_concat' l with rfl | ⟨l, a, i, rfl⟩
    · simp at hl
    cases k with
    | zero => simp at hk
    | succ k =>
    rw [lastAddr_concat]
    rw [seg_append] at hs
    have hcell := hs.2.1
    rw [nodesIn_append] at ht ⊢
    cases hi : i.data with
    | text kd s =>
      rw [nodesIn_text hi] at ht ⊢
      simp only [nodesIn_nil, List.append_nil] at ht ⊢
      obtain ⟨o, e1, e2⟩ := ih l k _ (by simpa using hl) (by simpa using hk) hs.1 ht
      refine ⟨o, ?_, e2⟩
      simp only [seekPrev, hcell, hi, hx]
      exact e1
    | node c =>
      rw [nodesIn_node hi] at ht ⊢
      simp only [nodesIn_nil, List.reverse_append, List.reverse_cons, List.reverse_nil, List.nil_append,
        List.singleton_append, List.find?_cons] at ht ⊢
      have hc := ht c (by simp)
      cases htc : t c with
      | true =>
        refine ⟨some a, ?_, ?_⟩
        · simp only [seekPrev, hcell, hi, hc, htc]
        · simp [nodeAt, hcell, hi]
      | false =>
        obtain ⟨o, e1, e2⟩ := ih l k _ (by simpa using hl) (by simpa using hk) hs.1 (fun d hd => ht d (by simp [hd]))
        refine ⟨o, ?_, by simpa using e2⟩
        simp only [seekPrev, hcell, hi, hc, htc]
        exact e1

theorem nthLoop_spec (pos : Nat) : ∀ (l : List (Nat × Info)) (k : Nat) (p : Option Nat) (it : Nat),
    l.length ≤ k → it ≤ pos → Seg h.items p l none →
    h.nthLoop pos k (headAddr l none) it = some (nodesIn l)[pos - it]? := by
  intro l
  induction l with
  | nil => intro k p it _ _ _; cases k <;> simp [nthLoop]
  | cons e l ih =>
    obtain ⟨a, i⟩ := e
    intro k p it hk hle hs
    cases k with
    | zero => simp at hk
    | succ k =>
    show h.nthLoop pos (k + 1) (some a) it = _
    simp only [nthLoop, hs.1]
    cases hi : i.data with
    | text kd s =>
      rw [nodesIn_text hi]
      exact ih k _ it (by simpa using hk) hle hs.2
    | node c =>
      rw [nodesIn_node hi]
      dsimp only
      by_cases e : it = pos
      · simp [e]
      · simp only [e, if_false]
        rw [ih k _ (it + 1) (by simpa using hk) (by omega) hs.2]
        rw [show pos - it = (pos - (it + 1)) + 1 by omega, List.getElem?_cons_succ]

theorem numLoop_spec : ∀ (l : List (Nat × Info)) (k : Nat) (p : Option Nat) (count : Nat),
    l.length ≤ k → Seg h.items p l none →
    h.numLoop k (headAddr l none) count = some (count + (nodesIn l).length) := by
  intro l
  induction l with
  | nil => intro k p it _ _; cases k <;> simp [numLoop]
  | cons e l ih =>
    obtain ⟨a, i⟩ := e
    intro k p it hk hs
    cases k with
    | zero => simp at hk
    | succ k =>
    show h.numLoop (k + 1) (some a) it = _
    simp only [numLoop, hs.1]
    cases hi : i.data with
    | text kd s =>
      rw [nodesIn_text hi]
      exact ih k _ it (by simpa using hk) hs.2
    | node c =>
      rw [nodesIn_node hi]
      dsimp only
      rw [ih k _ (it + 1) (by simpa using hk) hs.2]
      simp only [List.length_cons, Option.some.injEq]
      omega

theorem childsLoop_spec : ∀ (l : List (Nat × Info)) (k : Nat) (p : Option Nat) (r r' : AxlList Nat),
    l.length ≤ k → Seg h.items p l none → r.run ((nodesIn l).map Spec.Seq.Op.add) = some r' →
    h.childsLoop k (headAddr l none) r = some r' := by
  intro l
  induction l with
  | nil =>
    intro k p r r' _ _ hr
    have : r = r' := by simpa [AxlList.run] using hr
    cases k <;> simp [childsLoop, this]
  | cons e l ih =>
    obtain ⟨a, i⟩ := e
    intro k p r r' hk hs hr
    cases k with
    | zero => simp at hk
    | succ k =>
    show h.childsLoop (k + 1) (some a) r = _
    simp only [childsLoop, hs.1]
    cases hi : i.data with
    | text kd s =>
      rw [nodesIn_text hi] at hr
      exact ih k _ r r' (by simpa using hk) hs.2 hr
    | node c =>
      rw [nodesIn_node hi] at hr
      simp only [List.map_cons, AxlList.run, AxlList.exec, Option.bind_eq_bind] at hr
      dsimp only
      cases hadd : r.add c with
      | none => rw [hadd] at hr; cases hr
      | some r1 =>
        rw [hadd] at hr
        exact ih k _ r1 r' (by simpa using hk) hs.2 hr

theorem seekContent : ∀ (l : List (Nat × Info)) (k : Nat) (p : Option Nat), l.length ≤ k → Seg h.items p l none →
    ∃ o, h.seekNext (fun d => some (isContent d)) k (headAddr l none) = some o ∧
      o.isNone = (l.map (·.2.data)).all fun c => !isContent c := by
  intro l
  induction l with
  | nil => intro k p _ _; exact ⟨none, by cases k <;> rfl, rfl⟩
  | cons e l ih =>
    obtain ⟨a, i⟩ := e
    intro k p hk hs
    cases k with
    | zero => simp at hk
    | succ k =>
    show ∃ o, h.seekNext _ (k + 1) (some a) = some o ∧ _
    cases hc : isContent i.data with
    | true => exact ⟨some a, by simp [seekNext, hs.1, hc], by simp [hc]⟩
    | false =>
      obtain ⟨o, e1, e2⟩ := ih k _ (by simpa using hk) hs.2
      refine ⟨o, ?_, by simp only [List.map_cons, List.all_cons, hc, Bool.not_false, Bool.true_and]; exact e2⟩
      simp only [seekNext, hs.1, hc]
      exact e1

namespace Rep

theorem nodesIn_eq (R : Rep h f ns) {n : Nat} (hn : f.live n = true) : nodesIn (ns n) = nodesOf (f.kids n) := by
  rw [R.kids_eq hn]; rfl

theorem called (R : Rep h f ns) (T : Tame f) {n : Nat} (hn : f.live n = true) (name : List Char) :
    ∀ c ∈ nodesOf (f.kids n), h.isCalled name (.node c) = some (f.name c == name) := by
  intro c hc
  have hl := T.closed n c ⟨hn, mem_nodesOf.mp hc⟩
  obtain ⟨hd, h1⟩ := R.nodes c hl
  simp [isCalled, h1]

theorem find_true {α : Type} (l : List α) : l.find? (fun _ => true) = l.head? := by
  cases l <;> simp

theorem getFirstChild (R : Rep h f ns) {n : Nat} (hn : f.live n = true) :
    h.getFirstChild n = some (nodesOf (f.kids n)).head? := by
  obtain ⟨hd, h1⟩ := R.nodes n hn
  obtain ⟨o, e1, e2, _⟩ := seekNext_node (h := h) (test := isNode) (t := fun _ => true) (fun _ _ => rfl) (ns n) h.nextItem none
    (R.length_le hn) (R.seg n hn) (fun _ _ => rfl)
  simp only [Heap.getFirstChild, h1, Option.bind_eq_bind, Option.bind_some, e1, e2]
  rw [R.nodesIn_eq hn, find_true]

theorem haveChilds (R : Rep h f ns) {n : Nat} (hn : f.live n = true) :
    h.haveChilds n = some !(nodesOf (f.kids n)).isEmpty := by
  obtain ⟨hd, h1⟩ := R.nodes n hn
  obtain ⟨o, e1, _, e3⟩ := seekNext_node (h := h) (test := isNode) (t := fun _ => true) (fun _ _ => rfl) (ns n) h.nextItem none
    (R.length_le hn) (R.seg n hn) (fun _ _ => rfl)
  simp only [Heap.haveChilds, h1, Option.bind_eq_bind, Option.bind_some, e1, e3]
  rw [R.nodesIn_eq hn, find_true]
  cases nodesOf (f.kids n) <;> rfl

theorem isEmpty (R : Rep h f ns) {n : Nat} (hn : f.live n = true) :
    h.isEmpty n = some ((f.kids n).all fun c => !isContent c) := by
  obtain ⟨hd, h1⟩ := R.nodes n hn
  obtain ⟨o, e1, e2⟩ := seekContent (h := h) (ns n) h.nextItem none (R.length_le hn) (R.seg n hn)
  simp only [Heap.isEmpty, h1, Option.bind_eq_bind, Option.bind_some, e1, e2]
  rw [R.kids_eq hn]

theorem getLastChild (R : Rep h f ns) {n : Nat} (hn : f.live n = true) :
    h.getLastChild n = some (nodesOf (f.kids n)).getLast? := by
  obtain ⟨hd, h1⟩ := R.nodes n hn
  obtain ⟨o, e1, e2⟩ := seekPrev_node (h := h) (test := isNode) (t := fun _ => true) (fun _ _ => rfl) _ (ns n) h.nextItem none rfl
    (R.length_le hn) (R.seg n hn) (fun _ _ => rfl)
  simp only [Heap.getLastChild, h1, Option.bind_eq_bind, Option.bind_some, e1, e2]
  rw [R.nodesIn_eq hn, find_true, List.head?_reverse]

theorem getChildCalled (R : Rep h f ns) (T : Tame f) {n : Nat} (hn : f.live n = true) (name : List Char) :
    h.getChildCalled n name = some ((nodesOf (f.kids n)).find? fun c => f.name c == name) := by
  obtain ⟨hd, h1⟩ := R.nodes n hn
  obtain ⟨o, e1, e2, _⟩ := seekNext_node (h := h) (test := h.isCalled name) (t := fun c => f.name c == name) (fun _ _ => rfl)
    (ns n) h.nextItem none (R.length_le hn) (R.seg n hn) (by rw [R.nodesIn_eq hn]; exact R.called T hn name)
  simp only [Heap.getChildCalled, h1, Option.bind_eq_bind, Option.bind_some, e1, e2]
  rw [R.nodesIn_eq hn]

theorem getChildNth (R : Rep h f ns) {n : Nat} (hn : f.live n = true) (pos : Nat) :
    h.getChildNth n pos = some (nodesOf (f.kids n))[pos]? := by
  obtain ⟨hd, h1⟩ := R.nodes n hn
  simp only [Heap.getChildNth, h1, Option.bind_eq_bind, Option.bind_some]
  rw [nthLoop_spec pos (ns n) h.nextItem none 0 (R.length_le hn) (Nat.zero_le _) (R.seg n hn), R.nodesIn_eq hn]
  rfl

theorem getChildNum (R : Rep h f ns) {n : Nat} (hn : f.live n = true) :
    h.getChildNum n = some (nodesOf (f.kids n)).length := by
  obtain ⟨hd, h1⟩ := R.nodes n hn
  simp only [Heap.getChildNum, h1, Option.bind_eq_bind, Option.bind_some]
  rw [numLoop_spec (ns n) h.nextItem none 0 (R.length_le hn) (R.seg n hn), R.nodesIn_eq hn]
  simp

/-- A child node is between those before it and those after it. -/
theorem around (R : Rep h f ns) {n m : Nat} (hn : f.live n = true) {xs ys : List Nat}
    (hk : nodesOf (f.kids n) = xs ++ m :: ys) :
    ∃ A B a nd, ns n = A ++ (a, ⟨some n, .node m⟩) :: B ∧ nodesIn A = xs ∧ nodesIn B = ys ∧
      h.nodes m = some nd ∧ nd.holder = some a := by
  obtain ⟨l1, l2, e1, e2, e3⟩ := nodesOf_split hk
  have h1 := R.info n hn
  rw [e1, List.map_append, List.map_cons] at h1
  obtain ⟨A, B', hs, hA, hB⟩ := List.map_eq_append_iff.mp h1
  obtain ⟨⟨a, i⟩, B, rfl, hi, hB2⟩ := List.map_eq_cons_iff.mp hB
  dsimp only at hi
  subst hi
  obtain ⟨nd, k1, k2⟩ := R.child n a m hn (by rw [hs]; simp)
  have hd : ∀ {l : List (Nat × Info)} {r : List Child}, l.map Prod.snd = r.map (fun v => ⟨some n, v⟩) →
      l.map (·.2.data) = r := by
    intro l r hlr
    have := congrArg (List.map Info.data) hlr
    rw [List.map_map, List.map_map] at this
    conv at this => rhs; rw [show (Info.data ∘ fun v => (⟨some n, v⟩ : Info)) = id from rfl, List.map_id]
    exact this
  refine ⟨A, B, a, nd, hs, ?_, ?_, k1, k2⟩
  · rw [nodesIn, hd hA, e2]
  · rw [nodesIn, hd hB2, e3]

theorem getNext (R : Rep h f ns) {n m : Nat} (hn : f.live n = true) {xs ys : List Nat}
    (hk : nodesOf (f.kids n) = xs ++ m :: ys) : h.getNext m = some ys.head? := by
  obtain ⟨A, B, a, nd, hs, hA, hB, k1, k2⟩ := R.around hn hk
  have hseg := R.seg n hn
  have hlen := R.length_le hn
  rw [hs] at hseg hlen
  have hcell := seg_mid hseg
  rw [seg_append] at hseg
  obtain ⟨o, e1, e2, _⟩ := seekNext_node (h := h) (test := isNode) (t := fun _ => true) (fun _ _ => rfl) B h.nextItem _
    (by simp at hlen; omega) hseg.2.2 (fun _ _ => rfl)
  simp only [Heap.getNext, k1, k2, hcell, Option.bind_eq_bind, Option.bind_some, e1, e2]
  rw [hB, find_true]

theorem getPrevious (R : Rep h f ns) {n m : Nat} (hn : f.live n = true) {xs ys : List Nat}
    (hk : nodesOf (f.kids n) = xs ++ m :: ys) : h.getPrevious m = some xs.getLast? := by
  obtain ⟨A, B, a, nd, hs, hA, hB, k1, k2⟩ := R.around hn hk
  have hseg := R.seg n hn
  have hlen := R.length_le hn
  rw [hs] at hseg hlen
  have hcell := seg_mid hseg
  rw [seg_append] at hseg
  obtain ⟨o, e1, e2⟩ := seekPrev_node (h := h) (test := isNode) (t := fun _ => true) (fun _ _ => rfl) _ A h.nextItem _ rfl
    (by simp at hlen; omega) hseg.1 (fun _ _ => rfl)
  simp only [Heap.getPrevious, k1, k2, hcell, Option.bind_eq_bind, Option.bind_some, e1, e2]
  rw [hA, find_true, List.head?_reverse]

theorem nodup_kids (R : Rep h f ns) {n : Nat} (hn : f.live n = true) : (nodesOf (f.kids n)).Nodup := by
  rw [← R.nodesIn_eq hn]
  have : ∀ P S, ns n = P ++ S → (nodesIn S).Nodup := by
    intro P S
    induction S generalizing P with
    | nil => intro _; simp
    | cons e S ih =>
      intro hs
      obtain ⟨a, i⟩ := e
      have h2 := ih (P ++ [(a, i)]) (by simpa using hs)
      cases hi : i.data with
      | text k s => rw [nodesIn_text hi]; exact h2
      | node c =>
        rw [nodesIn_node hi, List.nodup_cons]
        refine ⟨?_, h2⟩
        intro hc
        obtain ⟨x, hx, hx2⟩ := List.mem_map.mp (mem_nodesOf.mp hc)
        have hpar := (R.entry hn (a := a) (i := i) (by rw [hs]; simp)).1
        have : i = ⟨some n, .node c⟩ := by cases i; simp at hpar hi; simp [hpar, hi]
        subst this
        exact R.only hn hs x (by simp [hx]) hx2
  exact this [] (ns n) rfl

theorem length_nodes (R : Rep h f ns) (T : Tame f) {n : Nat} (hn : f.live n = true) :
    (nodesOf (f.kids n)).length ≤ h.nextNode := by
  rw [R.next]
  exact nodup_bounded_length (R.nodup_kids hn) (fun x hx => T.bound x (T.closed n x ⟨hn, mem_nodesOf.mp hx⟩))

theorem nextCalledLoop (R : Rep h f ns) (T : Tame f) {n : Nat} (hn : f.live n = true) (name : List Char) :
    ∀ (ys xs : List Nat) (k : Nat), nodesOf (f.kids n) = xs ++ ys → ys.length ≤ k →
    h.nextCalledLoop name k ys.head? = some (ys.find? fun c => f.name c == name) := by
  intro ys
  induction ys with
  | nil => intro xs k _ _; cases k <;> rfl
  | cons y ys ih =>
    intro xs k hk hlen
    cases k with
    | zero => simp at hlen
    | succ k =>
    obtain ⟨hd, h1⟩ := R.nodes y (T.closed n y ⟨hn, mem_nodesOf.mp (by rw [hk]; simp)⟩)
    simp only [List.head?_cons, Heap.nextCalledLoop, h1, R.getNext hn hk, List.find?_cons]
    cases hc : f.name y == name with
    | true => simp
    | false =>
      simp only [Bool.false_eq_true, if_false]
      exact ih (xs ++ [y]) k (by simpa using hk) (by simpa using hlen)

theorem getNextCalled (R : Rep h f ns) (T : Tame f) {n m : Nat} (hn : f.live n = true) {xs ys : List Nat}
    (hk : nodesOf (f.kids n) = xs ++ m :: ys) (name : List Char) :
    h.getNextCalled m name = some (ys.find? fun c => f.name c == name) := by
  have hlen := R.length_nodes T hn
  rw [hk] at hlen
  simp only [Heap.getNextCalled, R.getNext hn hk, Option.bind_eq_bind, Option.bind_some]
  exact R.nextCalledLoop T hn name ys (xs ++ [m]) _ (by simpa using hk) (by simp at hlen; omega)

theorem findLoop (R : Rep h f ns) {n : Nat} (hn : f.live n = true) {find : Nat → Option (Option Nat)}
    {g : Nat → Option Nat} (hg : ∀ c, Edge f n c → find c = some (g c)) :
    ∀ (ys xs : List Nat) (k : Nat), nodesOf (f.kids n) = xs ++ ys → ys.length ≤ k →
    Heap.findLoop find h k ys.head? = some (ys.findSome? g)
  | [], xs, k, _, _ => by cases k <;> rfl
  | y :: ys, xs, k, hk, hl => by
    obtain ⟨k, rfl⟩ : ∃ j, k = j + 1 := ⟨k - 1, by simp at hl; omega⟩
    have e := hg y ⟨hn, mem_nodesOf.mp (by rw [hk]; simp)⟩
    simp only [List.head?_cons, Heap.findLoop, e, R.getNext hn hk, List.findSome?_cons]
    cases g y with
    | some m => rfl
    | none => exact findLoop R hn hg ys (xs ++ [y]) k (by simpa using hk) (by simpa using hl)

theorem findDepth (R : Rep h f ns) (T : Tame f) (name : List Char) : ∀ (d n : Nat), Depth f d n → f.live n = true →
    h.findDepth name d n = some (f.findIn name d n)
  | 0, _, hd, _ => hd.elim
  | d + 1, n, hd, hn => by
    simp only [Heap.findDepth, findIn, R.getFirstChild hn,
      R.nextCalledLoop T hn name _ [] _ rfl (R.length_nodes T hn)]
    cases (nodesOf (f.kids n)).find? fun c => f.name c == name with
    | some m => rfl
    | none =>
      exact R.findLoop hn (fun c ec => findDepth R T name d c (hd c ec) (T.closed n c ec)) _ [] _ rfl
        (R.length_nodes T hn)

theorem findCalled (R : Rep h f ns) (T : Tame f) {n : Nat} (hn : f.live n = true) (name : List Char) :
    h.findCalled n name = some (f.findIn name f.next n) := by
  rw [Heap.findCalled, R.next]
  exact R.findDepth T name _ n (depth_next T hn) hn

theorem findIn_some {f : Forest} (T : Tame f) {name : List Char} : ∀ {d n m : Nat}, f.live n = true →
    f.findIn name d n = some m → (∃ c, Edge f n c ∧ Reach f c m) ∧ f.name m = name
  | 0, _, _, _, h => by cases h
  | d + 1, n, m, hn, h => by
    simp only [findIn] at h
    split at h
    · rename_i m' e
      cases h
      exact ⟨⟨m, ⟨hn, mem_nodesOf.mp (List.mem_of_find?_eq_some e)⟩, .refl⟩, by simpa using List.find?_some e⟩
    · obtain ⟨c, hc, e⟩ := List.exists_of_findSome?_eq_some h
      have ec : Edge f n c := ⟨hn, mem_nodesOf.mp hc⟩
      obtain ⟨⟨b, eb, r⟩, k⟩ := findIn_some T (T.closed _ _ ec) e
      exact ⟨⟨c, ec, .head eb r⟩, k⟩

theorem findIn_none {f : Forest} (T : Tame f) {name : List Char} : ∀ {d n : Nat}, f.live n = true → Depth f d n →
    f.findIn name d n = none → ∀ c m, Edge f n c → Reach f c m → f.name m ≠ name
  | 0, _, _, hd, _ => hd.elim
  | d + 1, n, hn, hd, h => by
    intro c m ec r
    simp only [findIn] at h
    split at h
    · cases h
    · rename_i e
      rw [List.findSome?_eq_none_iff] at h
      have hc := mem_nodesOf.mpr ec.2
      rcases r.cases_head with rfl | ⟨b, eb, r⟩
      · have := List.find?_eq_none.1 e c hc
        simpa using this
      · exact findIn_none T (T.closed _ _ ec) (hd c ec) (h c hc) b m eb r

theorem previousCalledLoop (R : Rep h f ns) (T : Tame f) {n : Nat} (hn : f.live n = true) (name : List Char) :
    ∀ (xs ys : List Nat) (k : Nat), nodesOf (f.kids n) = xs.reverse ++ ys → xs.length ≤ k →
    h.previousCalledLoop name k xs.head? = some (xs.find? fun c => f.name c == name) := by
  intro xs
  induction xs with
  | nil => intro xs k _ _; cases k <;> rfl
  | cons y xs ih =>
    intro ys k hk hlen
    cases k with
    | zero => simp at hlen
    | succ k =>
    obtain ⟨hd, h1⟩ := R.nodes y (T.closed n y ⟨hn, mem_nodesOf.mp (by rw [hk]; simp)⟩)
    have hk' : nodesOf (f.kids n) = xs.reverse ++ y :: ys := by simpa using hk
    simp only [List.head?_cons, Heap.previousCalledLoop, h1, R.getPrevious hn hk', List.find?_cons]
    cases hc : f.name y == name with
    | true => simp
    | false =>
      simp only [Bool.false_eq_true, if_false, List.getLast?_reverse]
      exact ih (y :: ys) k hk' (by simpa using hlen)

theorem getPreviousCalled (R : Rep h f ns) (T : Tame f) {n m : Nat} (hn : f.live n = true) {xs ys : List Nat}
    (hk : nodesOf (f.kids n) = xs ++ m :: ys) (name : List Char) :
    h.getPreviousCalled m name = some (xs.reverse.find? fun c => f.name c == name) := by
  have hlen := R.length_nodes T hn
  rw [hk] at hlen
  simp only [Heap.getPreviousCalled, R.getPrevious hn hk, Option.bind_eq_bind, Option.bind_some]
  rw [← List.head?_reverse]
  exact R.previousCalledLoop T hn name xs.reverse (m :: ys) _ (by simpa using hk) (by simp at hlen ⊢; omega)

end Rep
end Axl.Heap
