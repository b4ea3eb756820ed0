/-
A DTD that is written as XML asks is accepted and gives the declarations that were written.
-/
import Verif.Proofs.DtdReads
import Verif.Proofs.Source
import Verif.Spec.DtdSource

namespace Axl.Dtd
open Str Stream Spec.Xml Spec.RoundTrip Source

/-! ### The stream -/

theorem skip_gap {g : List Char} (h : Blank g) {c : Char} (hc : ¬ White c) (r : List Char) : skip (g ++ c :: r) = c :: r := by
  rw [skip_blank h, skip_cons_not hc]

theorem eat_eq (s chunk : List Char) : eat s chunk = if chunk.isPrefixOf s = true then some (s.drop chunk.length) else none := by
  split
  · rename_i h
    obtain ⟨r, rfl⟩ := List.isPrefixOf_iff_prefix.1 h
    rw [eat_append]
    simp
  · rename_i h
    exact eat_none.2 fun h' => h (List.isPrefixOf_iff_prefix.2 h')

theorem eat_cons (c : Char) (r : List Char) : eat (c :: r) [c] = some r := eat_append [c] r

theorem eat_cons_ne {c d : Char} {r : List Char} (h : c ≠ d) : eat (c :: r) [d] = none := by
  rw [eat_none]
  simpa using fun h' : d = c => h h'.symm

theorem not_white (c : Char) (h : isWhite c = false := by decide) : ¬ White c := (white_false c).1 h

/-! ### Content models -/

/-- The names in a content model, `#PCDATA` one of them. -/
def Bare (n : List Char) : Prop := n ≠ [] ∧ ∀ c ∈ n, ¬ White c ∧ c ∉ [NUL, ',', '|', '(', ')', '+', '*', '?']

theorem Source.DtdName.plain {n : List Char} (h : DtdName n) : Bare n := by
  refine ⟨h.1.1, fun c hc => ⟨(h.1.2 c hc).1, ?_⟩⟩
  have h1 := (h.1.2 c hc).2
  have h2 := h.2 c hc
  simp only [List.mem_cons, List.not_mem_nil, or_false, not_or] at h1 h2 ⊢
  exact ⟨h1.1, h2.1, h2.2.1, h2.2.2.1, h2.2.2.2.1, h2.2.2.2.2.1, h2.2.2.2.2.2.1, h1.2.2.2.2.2.2.2.2.1⟩

theorem Source.DtdName.nul {n : List Char} (h : DtdName n) : NUL ∉ n := by
  intro hc
  have := (h.1.2 _ hc).2
  simp [NUL] at this

theorem Bare.nul {n : List Char} (h : Bare n) : NUL ∉ n := by
  intro hc
  have := (h.2 _ hc).2
  simp at this

theorem Source.DtdName.white {n : List Char} (h : DtdName n) : ∀ c ∈ n, ¬ White c := fun c hc => (h.1.2 c hc).1

theorem matchAt_delimiters (c : Char) (r : List Char) : matchAt delimiters c r =
    if isWhite c then some (0, 1) else if c = ',' then some (1, 1) else if c = '|' then some (2, 1) else
    if c = ')' then some (3, 1) else if c = '+' then some (4, 1) else if c = '*' then some (5, 1) else
    if c = '?' then some (6, 1) else if c = '(' then some (7, 1) else none := by
  unfold matchAt delimiters
  have h0 : List.idxOf [' '] [[' '], [','], ['|'], [')'], ['+'], ['*'], ['?'], ['(']] = 0 := by decide
  simp only [List.contains_eq_mem, List.mem_cons, true_or, decide_true, Bool.true_and, h0]
  split
  · rfl
  · simp only [firstChunk, List.isPrefixOf_cons₂, List.isPrefixOf, Bool.and_true, beq_iff_eq]
    simp [eq_comm]

theorem plain_none {n : List Char} (h : Bare n) {c : Char} (hc : c ∈ n) (r : List Char) : matchAt delimiters c r = none := by
  obtain ⟨h1, h2⟩ := h.2 c hc
  rw [matchAt_delimiters, if_neg (by rw [Bool.not_eq_true, white_false]; exact h1)]
  simp only [List.mem_cons, List.not_mem_nil, or_false, not_or] at h2
  obtain ⟨-, h2, h3, h4, h5, h6, h7, h8⟩ := h2
  simp [h2, h3, h4, h5, h6, h7, h8]

theorem getUntil_plain {n : List Char} (h : Bare n) {c : Char} {r : List Char} {i : Nat} (hm : matchAt delimiters c r = some (i, 1)) :
    getUntil delimiters (n ++ c :: r) = some ⟨n, i, c :: r, r⟩ := by
  rw [getUntil_of hm n]
  · rfl
  · intro x d y hx
    exact plain_none h (by rw [hx]; simp) _

/-- The number of a separator. -/
def numberOf (c : Char) : Nat := if c = ',' then 1 else if c = '|' then 2 else 3

def IsSep (c : Char) : Prop := c = ',' ∨ c = '|' ∨ c = ')'

theorem IsSep.white {c : Char} (h : IsSep c) : ¬ White c := by
  rcases h with rfl | rfl | rfl <;> exact not_white _

theorem separator_of {g : List Char} (hg : Blank g) {c : Char} (hc : IsSep c) (r : List Char) :
    separator (g ++ c :: r) = some (numberOf c, r) := by
  unfold separator
  rw [skip_gap hg hc.white]
  rcases hc with rfl | rfl | rfl
  · rw [eat_cons]; rfl
  · rw [eat_cons_ne (by decide), eat_cons]; rfl
  · rw [eat_cons_ne (by decide), eat_cons_ne (by decide), eat_cons]; rfl

theorem afterSpace_of {g : List Char} (hg : Blank g) {c : Char} (hc : IsSep c) (r : List Char) :
    afterSpace (g ++ c :: r) = (numberOf c, r) := by
  unfold afterSpace
  rw [separator_of hg hc]

theorem matchAt_sep {c : Char} (h : IsSep c) (r : List Char) : matchAt delimiters c r = some (numberOf c, 1) := by
  rw [matchAt_delimiters]
  rcases h with rfl | rfl | rfl <;> rfl

/-- A name, its repetition and what is after it. -/
theorem particle_of {n : List Char} (hn : Bare n) (t : Times) {g : List Char} (hg : Blank g) {c : Char} (hc : IsSep c) (rest : List Char) :
    ∃ f, getUntil delimiters (n ++ (sign t ++ (g ++ c :: rest))) = some f ∧ f.text = n ∧
      ∃ chunk s, (if f.chunk = 0 then afterSpace f.after else (f.chunk, f.after)) = (chunk, s) ∧ chunkTimes chunk = t ∧
        (if (chunk = 4 || chunk = 5 || chunk = 6) = true then separator s else some (chunk, s)) = some (numberOf c, rest) := by
  have hnum : numberOf c = 1 ∨ numberOf c = 2 ∨ numberOf c = 3 := by
    rcases hc with rfl | rfl | rfl <;> simp [numberOf]
  have hone : chunkTimes (numberOf c) = .one := by rcases hnum with h | h | h <;> rw [h] <;> rfl
  cases t with
  | one =>
    simp only [sign, List.nil_append]
    cases g with
    | nil =>
      refine ⟨_, getUntil_plain hn (matchAt_sep hc rest), rfl, numberOf c, rest, ?_, hone, ?_⟩
      · rw [if_neg]; simp only; omega
      · rw [if_neg]; simp; omega
    | cons w g =>
      have hw := hg w (List.mem_cons_self ..)
      have hm : matchAt delimiters w (g ++ c :: rest) = some (0, 1) := by
        rw [matchAt_delimiters, if_pos ((white_iff w).2 hw)]
      refine ⟨_, getUntil_plain hn hm, rfl, numberOf c, rest, ?_, hone, ?_⟩
      · rw [if_pos rfl]
        exact afterSpace_of (fun x hx => hg x (List.mem_cons_of_mem _ hx)) hc rest
      · rw [if_neg]; simp; omega
  | opt =>
    refine ⟨⟨n, 6, _, _⟩, getUntil_plain hn (c := '?') (by rw [matchAt_delimiters]; rfl), rfl, 6, g ++ c :: rest, rfl, rfl, ?_⟩
    exact separator_of hg hc rest
  | many =>
    refine ⟨⟨n, 5, _, _⟩, getUntil_plain hn (c := '*') (by rw [matchAt_delimiters]; rfl), rfl, 5, g ++ c :: rest, rfl, rfl, ?_⟩
    exact separator_of hg hc rest
  | some1 =>
    refine ⟨⟨n, 4, _, _⟩, getUntil_plain hn (c := '+') (by rw [matchAt_delimiters]; rfl), rfl, 4, g ++ c :: rest, rfl, rfl, ?_⟩
    exact separator_of hg hc rest

/-- What is done after lists were closed. -/
def goOn (fuel : Nat) (x : Reading × Nat × List Char) : Res (Reading × List Char) :=
  if x.2.1 ≠ 3 || !x.1.stack.isEmpty then specLoop fuel x.1 x.2.2 else .ok (x.1, x.2.2)

/-- Reading goes on to the end, with a result that meets `Q`. -/
def Spells (r : Reading) (s : List Char) (Q : Res (Reading × List Char) → Prop) : Prop :=
  ∀ fuel, specLoop fuel r s = .loop ∨ Q (specLoop fuel r s)

/-- The same after a ")". -/
def Closes (r : Reading) (s : List Char) (Q : Res (Reading × List Char) → Prop) : Prop :=
  ∀ k fuel, (closeLoop k r 3 s >>= goOn fuel) = .loop ∨ Q (closeLoop k r 3 s >>= goOn fuel)

theorem spells_skip {r : Reading} {s : List Char} {Q : Res (Reading × List Char) → Prop} : Spells r (skip s) Q ↔ Spells r s Q := by
  have h : ∀ fuel, specLoop fuel r (skip s) = specLoop fuel r s := by
    intro fuel
    cases fuel with
    | zero => rfl
    | succ fuel => rw [specLoop, specLoop, skip_skip]
  simp only [Spells, h]

/-- The state after a particle. -/
def Reading.add (r : Reading) (k : Kind) (p : Part) : Reading := { r with cur := { r.cur with kind := k, items := r.cur.items ++ [p] } }

theorem spells_open {r : Reading} {g s : List Char} {Q : Res (Reading × List Char) → Prop} (hg : Blank g)
    (h : Spells { r with cur := ⟨.undef, .one, []⟩, stack := r.cur :: r.stack } s Q) : Spells r (g ++ '(' :: s) Q := by
  intro fuel
  cases fuel with
  | zero => exact .inl rfl
  | succ fuel =>
    rw [specLoop, skip_gap hg (not_white _), eat_cons]
    exact h fuel

theorem plain_skip {g n : List Char} (hg : Blank g) (hn : Bare n) (r : List Char) : skip (g ++ (n ++ r)) = n ++ r ∧
    eat (n ++ r) c!"(" = none := by
  obtain ⟨h1, h2⟩ := hn
  cases n with
  | nil => exact absurd rfl h1
  | cons c n =>
    have hc := h2 c (List.mem_cons_self ..)
    refine ⟨skip_gap hg hc.1 _, eat_cons_ne ?_⟩
    rintro rfl
    simp at hc

theorem spells_name {r : Reading} {g n g' rest : List Char} {t : Times} {c : Char} {Q : Res (Reading × List Char) → Prop} (hg : Blank g) (hn : Bare n)
    (hg' : Blank g') (hc : c = ',' ∨ c = '|') {k : Kind} (hk : kindAfter r.cur.kind (numberOf c) = some k)
    (h : Spells (r.add k (.node t n)) rest Q) : Spells r (g ++ (n ++ (sign t ++ (g' ++ c :: rest)))) Q := by
  intro fuel
  cases fuel with
  | zero => exact .inl rfl
  | succ fuel =>
    obtain ⟨f, h1, h2, chunk, s, h3, h4, h5⟩ := particle_of hn t hg' (c := c) (by rcases hc with rfl | rfl <;> simp [IsSep]) rest
    obtain ⟨h6, h7⟩ := plain_skip hg hn (sign t ++ (g' ++ c :: rest))
    rw [specLoop, h6, h7]
    simp only
    rw [h1]
    simp only
    rw [h3]
    simp only
    rw [h5]
    simp only
    rw [hk, h4, h2, Parse.toStr_id hn.nul]
    simp only
    have hnum : numberOf c ≠ 3 := by rcases hc with rfl | rfl <;> decide
    rw [if_neg hnum]
    have hs : sortAfter r n (numberOf c) (r.cur.items ++ [.node t n]) = r.sort := by
      unfold sortAfter
      rw [if_neg]
      simp [hnum]
    rw [hs]
    exact h fuel

/-- The type of the element after the last particle of a list. -/
def lastSort (r : Reading) (n : List Char) : Shape :=
  if n = c!"#PCDATA" then if r.cur.items.length = 0 then .pcdata else .mixed else r.sort

theorem kindAfter_three (k : Kind) : kindAfter k 3 = some k := by
  simp [kindAfter]

theorem spells_last {r : Reading} {g n g' rest : List Char} {t : Times} {Q : Res (Reading × List Char) → Prop} (hg : Blank g) (hn : Bare n)
    (hg' : Blank g') (h : Closes { r.add r.cur.kind (.node t n) with sort := lastSort r n } rest Q) :
    Spells r (g ++ (n ++ (sign t ++ (g' ++ ')' :: rest)))) Q := by
  intro fuel
  cases fuel with
  | zero => exact .inl rfl
  | succ fuel =>
    obtain ⟨f, h1, h2, chunk, s, h3, h4, h5⟩ := particle_of hn t hg' (c := ')') (by simp [IsSep]) rest
    obtain ⟨h6, h7⟩ := plain_skip hg hn (sign t ++ (g' ++ ')' :: rest))
    rw [specLoop, h6, h7]
    simp only
    rw [h1]
    simp only
    rw [h3]
    simp only
    rw [h5]
    simp only
    have hnum : numberOf ')' = 3 := rfl
    rw [hnum, kindAfter_three, h4, h2, Parse.toStr_id hn.nul]
    simp only [if_true]
    have hs : sortAfter r n 3 (r.cur.items ++ [.node t n]) = lastSort r n := by
      unfold sortAfter lastSort
      by_cases hp : n = c!"#PCDATA"
      · rw [if_pos (by simp [cmp_true, hp]), if_pos hp]
        simp
      · rw [if_neg (by simp [cmp_true, hp]), if_neg hp]
    rw [hs]
    have := h (rest.length + 1) fuel
    simp only [Reading.add] at this
    generalize closeLoop (rest.length + 1) _ 3 rest = x at this ⊢
    cases x with
    | ok y => exact this
    | error => exact this
    | ub => exact this
    | loop => exact .inl rfl

/-! Closing -/

theorem repetition_sign (t : Times) {g : List Char} (hg : Blank g) {c : Char} (hc : c ∉ [' ', '\n', '\t', '\r', '?', '+', '*']) (rest : List Char) :
    ∃ s, repetition (skip (sign t ++ (g ++ c :: rest))) = (t, s) ∧ skip s = c :: rest := by
  have hw : ¬ White c := by
    intro h; unfold White at h; simp at hc; grind
  have hsk := skip_gap hg hw rest
  simp only [List.mem_cons, List.not_mem_nil, or_false, not_or] at hc
  cases t with
  | one =>
    refine ⟨c :: rest, ?_, skip_cons_not hw⟩
    simp only [sign, List.nil_append, hsk]
    unfold repetition
    rw [eat_cons_ne hc.2.2.2.2.1, eat_cons_ne hc.2.2.2.2.2.1, eat_cons_ne hc.2.2.2.2.2.2]
  | opt => exact ⟨_, by simp only [sign, List.cons_append, List.nil_append]; rw [skip_cons_not (not_white _)]; unfold repetition; rw [eat_cons], hsk⟩
  | some1 =>
    exact ⟨_, by
      simp only [sign, List.cons_append, List.nil_append]; rw [skip_cons_not (not_white _)]; unfold repetition
      rw [eat_cons_ne (by decide), eat_cons], hsk⟩
  | many =>
    exact ⟨_, by
      simp only [sign, List.cons_append, List.nil_append]; rw [skip_cons_not (not_white _)]; unfold repetition
      rw [eat_cons_ne (by decide), eat_cons_ne (by decide), eat_cons], hsk⟩

/-- The state after a list was closed. -/
def Reading.up (r : Reading) (t : Times) (parent : Content) (stack : List Content) : Reading :=
  { r with cur := { parent with items := parent.items ++ [.list r.cur.kind t r.cur.items] }, stack := stack }

/-- A list within another, and a separator. -/
theorem closes_sep {r : Reading} {t : Times} {g rest : List Char} {c : Char} {Q : Res (Reading × List Char) → Prop} (hg : Blank g) (hc : c = ',' ∨ c = '|')
    {parent : Content} {stack : List Content} (hs : r.stack = parent :: stack) (hr : ∀ x y, skip rest = x :: y → x ≠ ')')
    (h : Spells (r.up t parent stack) rest Q) : Closes r (sign t ++ (g ++ c :: rest)) Q := by
  intro k fuel
  cases k with
  | zero => exact .inl rfl
  | succ k =>
    obtain ⟨s, h1, h2⟩ := repetition_sign t hg (c := c) (by rcases hc with rfl | rfl <;> decide) rest
    have h3 : closeSep 3 s = (numberOf c, rest) := by
      unfold closeSep
      rw [h2]
      rcases hc with rfl | rfl
      · rw [eat_cons]; rfl
      · rw [eat_cons_ne (by decide), eat_cons]; rfl
    have h4 : eat (skip rest) c!")" = none := by
      cases hx : skip rest with
      | nil => rfl
      | cons x y => exact eat_cons_ne (hr x y hx)
    rw [closeLoop, h1]
    simp only
    rw [h3]
    simp only
    rw [hs]
    simp only
    rw [h4]
    simp only [Res.ok_bind, goOn]
    have hnum : numberOf c ≠ 3 := by rcases hc with rfl | rfl <;> decide
    rw [if_pos (by simp [hnum])]
    exact spells_skip.2 h fuel

/-- The last list of another. -/
theorem closes_last {r : Reading} {t : Times} {g rest : List Char} {Q : Res (Reading × List Char) → Prop} (hg : Blank g)
    {parent : Content} {stack : List Content} (hs : r.stack = parent :: stack) (h : Closes (r.up t parent stack) rest Q) :
    Closes r (sign t ++ (g ++ ')' :: rest)) Q := by
  intro k fuel
  cases k with
  | zero => exact .inl rfl
  | succ k =>
    obtain ⟨s, h1, h2⟩ := repetition_sign t hg (c := ')') (by decide) rest
    have h3 : closeSep 3 s = (3, ')' :: rest) := by
      unfold closeSep
      rw [h2, eat_cons_ne (by decide), eat_cons_ne (by decide)]
    rw [closeLoop, h1]
    simp only
    rw [h3]
    simp only
    rw [hs]
    simp only
    rw [skip_cons_not (not_white _), eat_cons]
    exact h k fuel

/-- The outermost list. -/
theorem closes_top {r : Reading} {t : Times} {g rest : List Char} {Q : Res (Reading × List Char) → Prop} (hg : Blank g)
    (hs : r.stack = []) (h : Q (.ok ({ r with cur := { r.cur with times := t }, closed := true }, '>' :: rest))) :
    Closes r (sign t ++ (g ++ '>' :: rest)) Q := by
  intro k fuel
  cases k with
  | zero => exact .inl rfl
  | succ k =>
    obtain ⟨s, h1, h2⟩ := repetition_sign t hg (c := '>') (by decide) rest
    have h3 : closeSep 3 s = (3, '>' :: rest) := by
      unfold closeSep
      rw [h2, eat_cons_ne (by decide), eat_cons_ne (by decide)]
    rw [closeLoop, h1]
    simp only
    rw [h3]
    simp only
    rw [hs]
    simp only
    rw [skip_cons_not (not_white _), eat_cons_ne (by decide)]
    simp only [Res.ok_bind, goOn]
    rw [if_neg (by simp [hs])]
    rw [hs] at h
    exact .inr h

theorem Source.DtdName.notText {n : List Char} (h : DtdName n) : n ≠ c!"#PCDATA" := by
  rintro rfl
  have := h.2 '#' (by simp)
  simp at this

/-- The kind of a list after some of its particles were read. -/
def kindIn (k k' : Kind) : Kind := if k' = .undef then k else k'

theorem kindIn_undef (k : Kind) : kindIn .undef k = k := by
  unfold kindIn
  split <;> simp_all

/-- The kind that a separator says. -/
def saysKind (choice : Bool) : Kind := if choice then .choice else .seq

/-- The list can have the separator. -/
def Fits (choice : Bool) (k : Kind) : Prop := k = .undef ∨ k = saysKind choice

theorem kindAfter_fits {choice : Bool} {k : Kind} (h : Fits choice k) : kindAfter k (numberOf (between choice)) = some (saysKind choice) := by
  rcases h with rfl | rfl <;> cases choice <;> decide

theorem Cps.head (choice : Bool) : ∀ (x : Cps), x.Valid → ∀ rest y z, skip (x.chars choice ++ rest) = y :: z → y ≠ ')' := by
  have hp : ∀ p : Cp, p.Valid → ∀ rest y z, skip (p.chars ++ rest) = y :: z → y ≠ ')' := by
    intro p hv rest y z h
    cases p with
    | name g n t g' =>
      obtain ⟨h1, h2, h3⟩ := hv
      simp only [Cp.chars, List.append_assoc] at h
      rw [(plain_skip h1 h2.plain _).1] at h
      have hn := h2.plain
      cases n with
      | nil => exact absurd rfl hn.1
      | cons c n =>
        have hc := (hn.2 c (List.mem_cons_self ..)).2
        cases h
        rintro rfl
        simp at hc
    | group g choice items t g' =>
      simp only [Cp.chars, List.append_assoc, List.cons_append] at h
      rw [skip_gap hv.1 (not_white _)] at h
      cases h
      decide
  intro x hv rest y z h
  cases x with
  | last p => exact hp p hv _ _ _ h
  | more p next =>
    simp only [Cps.chars, List.append_assoc] at h
    exact hp p hv.1 _ _ _ h

theorem kind_cases : ∀ (x : Cps) (choice : Bool), x.kind choice = .undef ∨ x.kind choice = saysKind choice
  | .last _, _ => .inl rfl
  | .more p next, choice => by
    rw [Cps.kind]
    split
    · exact .inr rfl
    · exact kind_cases next choice

mutual
/-- A particle and a separator. -/
theorem cp_more : ∀ (p : Cp) (choice : Bool) (r : Reading) (rest : List Char) (Q : Res (Reading × List Char) → Prop), p.Valid → Fits choice r.cur.kind →
    (∀ y z, skip rest = y :: z → y ≠ ')') →
    Spells (r.add (if p.isName then saysKind choice else r.cur.kind) p.stored) rest Q → Spells r (p.chars ++ between choice :: rest) Q
  | .name g n t g', choice, r, rest, Q, hv, hf, hr, h => by
    simp only [Cp.chars, List.append_assoc]
    exact spells_name hv.1 hv.2.1.plain hv.2.2 (by cases choice <;> simp [between]) (kindAfter_fits hf) h
  | .group g ch items t g', choice, r, rest, Q, hv, hf, hr, h => by
    simp only [Cp.chars, List.append_assoc, List.cons_append]
    refine spells_open hv.1 ?_
    refine cps_all items ch _ _ Q hv.2.1 (.inl rfl) ?_
    refine closes_sep hv.2.2 (by cases choice <;> simp [between]) (parent := r.cur) (stack := r.stack) rfl hr ?_
    simpa [Reading.up, Reading.add, Cp.isName, Cp.stored, kindIn_undef] using h
/-- The last particle. -/
theorem cp_last : ∀ (p : Cp) (r : Reading) (rest : List Char) (Q : Res (Reading × List Char) → Prop), p.Valid →
    Closes (r.add r.cur.kind p.stored) rest Q → Spells r (p.chars ++ ')' :: rest) Q
  | .name g n t g', r, rest, Q, hv, h => by
    simp only [Cp.chars, List.append_assoc]
    refine spells_last hv.1 hv.2.1.plain hv.2.2 ?_
    have : lastSort r n = r.sort := by rw [lastSort, if_neg hv.2.1.notText]
    rw [this]
    exact h
  | .group g ch items t g', r, rest, Q, hv, h => by
    simp only [Cp.chars, List.append_assoc, List.cons_append]
    refine spells_open hv.1 ?_
    refine cps_all items ch _ _ Q hv.2.1 (.inl rfl) ?_
    refine closes_last hv.2.2 (parent := r.cur) (stack := r.stack) rfl ?_
    simpa [Reading.up, Reading.add, Cp.stored, kindIn_undef] using h
/-- All the particles of a list. -/
theorem cps_all : ∀ (x : Cps) (choice : Bool) (r : Reading) (rest : List Char) (Q : Res (Reading × List Char) → Prop), x.Valid → Fits choice r.cur.kind →
    Closes { r with cur := { r.cur with kind := kindIn r.cur.kind (x.kind choice), items := r.cur.items ++ x.stored } } rest Q →
    Spells r (x.chars choice ++ ')' :: rest) Q
  | .last p, choice, r, rest, Q, hv, hf, h => cp_last p r rest Q hv h
  | .more p next, choice, r, rest, Q, hv, hf, h => by
    simp only [Cps.chars, List.append_assoc, List.cons_append]
    refine cp_more p choice r _ Q hv.1 hf (Cps.head choice next hv.2 _) ?_
    refine cps_all next choice _ rest Q hv.2 ?_ ?_
    · simp only [Reading.add]
      split
      · exact .inr rfl
      · exact hf
    · have hk : kindIn (if p.isName = true then saysKind choice else r.cur.kind) (next.kind choice) =
          kindIn r.cur.kind ((Cps.more p next).kind choice) := by
        have hn : next.kind choice = .undef ∨ next.kind choice = saysKind choice := kind_cases next choice
        simp only [Cps.kind, kindIn]
        by_cases hp : p.isName = true <;> rcases hn with hn | hn <;> cases choice <;> simp_all [saysKind]
      simp only [Reading.add, hk, List.append_assoc, List.cons_append, List.nil_append]
      exact h
end

theorem readSpec_of {s : List Char} {type : ElementType} {rest : List Char}
    (h : Spells ⟨⟨.undef, .one, []⟩, [], .children, false⟩ s fun y => y.Ends fun x => x.1.type = type ∧ x.2 = rest) :
    readSpec ('(' :: s) = .ok (type, rest) := by
  unfold readSpec
  have h1 : inspect (skip ('(' :: s)) c!"(" = .yes s := by
    rw [skip_cons_not (not_white _)]
    simp [inspect, List.isPrefixOf]
  rw [h1]
  simp only
  have h' : (specLoop (s.length + 1) ⟨⟨.undef, .one, []⟩, [], .children, false⟩ s).Ends fun x => x.1.type = type ∧ x.2 = rest := by
    rcases h (s.length + 1) with h | h
    · rw [h]; trivial
    · exact h
  obtain ⟨⟨r, s1⟩, h2, h3, h4⟩ := Parse.ends_sat h' (specLoop_sat (Nat.lt_succ_self _))
  rw [h2]
  simp only at h3 h4 ⊢
  rw [h3, h4]

theorem plain_pcdata : Bare c!"#PCDATA" := by
  refine ⟨by decide, fun c hc => ?_⟩
  simp only [List.mem_cons, List.not_mem_nil, or_false] at hc
  rcases hc with rfl | rfl | rfl | rfl | rfl | rfl | rfl <;> exact ⟨not_white _, by decide⟩

theorem elementType_of {m : Model} (hm : m.Valid) {g g' : List Char} (hg : Blank g) (hg' : Blank g') (rest : List Char) :
    ∃ s, elementType (g ++ (m.chars ++ (g' ++ '>' :: rest))) = .ok (m.stored, s) ∧ skip s = '>' :: rest := by
  have hgt := skip_gap hg' (not_white '>') rest
  have key : ∀ s type, readSpec ('(' :: s) = .ok (type, '>' :: rest) → ∃ s', elementType (g ++ ('(' :: s)) = .ok (type, s') ∧ skip s' = '>' :: rest := by
    intro s type h
    refine ⟨'>' :: rest, ?_, skip_cons_not (not_white _)⟩
    unfold elementType
    rw [skip_gap hg (not_white _), eat_none.2 (by simp), eat_none.2 (by simp)]
    exact h
  cases m with
  | empty =>
    refine ⟨g' ++ '>' :: rest, ?_, hgt⟩
    unfold elementType
    simp only [Model.chars, List.cons_append, List.nil_append]
    rw [skip_gap hg (not_white _)]
    rw [show ∀ r : List Char, eat ('E' :: 'M' :: 'P' :: 'T' :: 'Y' :: r) c!"EMPTY" = some r from fun r => eat_append c!"EMPTY" r]
    rfl
  | any =>
    refine ⟨g' ++ '>' :: rest, ?_, hgt⟩
    unfold elementType
    simp only [Model.chars, List.cons_append, List.nil_append]
    rw [skip_gap hg (not_white _), eat_none.2 (by simp)]
    rw [show ∀ r : List Char, eat ('A' :: 'N' :: 'Y' :: r) c!"ANY" = some r from fun r => eat_append c!"ANY" r]
    rfl
  | text a b many =>
    simp only [Model.chars, List.cons_append, List.append_assoc, List.nil_append]
    refine key _ _ (readSpec_of ?_)
    have := spells_last (r := ⟨⟨.undef, .one, []⟩, [], .children, false⟩) (t := .one) hm.1 plain_pcdata hm.2
      (rest := (if many = true then c!"*" else []) ++ (g' ++ '>' :: rest))
      (Q := fun y => y.Ends fun x => x.1.type = (Model.text a b many).stored ∧ x.2 = '>' :: rest)
    simp only [sign, List.nil_append, List.cons_append] at this
    refine this ?_
    have hs : (if many = true then c!"*" else []) = sign (if many = true then .many else .one) := by cases many <;> rfl
    rw [hs]
    refine closes_top hg' rfl ⟨?_, rfl⟩
    cases many <;> rfl
  | mixed a b names =>
    simp only [Model.chars, List.cons_append, List.append_assoc, List.nil_append]
    refine key _ _ (readSpec_of ?_)
    have := spells_name (r := ⟨⟨.undef, .one, []⟩, [], .children, false⟩) (t := .one) hm.1 plain_pcdata hm.2.1 (c := '|') (.inr rfl) (k := .choice) rfl
      (rest := names.chars true ++ (')' :: '*' :: (g' ++ '>' :: rest)))
      (Q := fun y => y.Ends fun x => x.1.type = (Model.mixed a b names).stored ∧ x.2 = '>' :: rest)
    simp only [sign, List.nil_append, List.cons_append] at this
    refine this ?_
    refine cps_all names true _ _ _ hm.2.2.1 (.inr rfl) ?_
    refine closes_top (t := .many) hg' rfl ⟨?_, rfl⟩
    rcases kind_cases names true with hk | hk <;> simp [Reading.type, Reading.add, hk, kindIn, saysKind, Model.stored]
  | children choice items t =>
    simp only [Model.chars, List.cons_append, List.append_assoc, List.nil_append]
    refine key _ _ (readSpec_of ?_)
    refine cps_all items choice _ _ _ hm (.inl rfl) ?_
    refine closes_top hg' rfl ⟨?_, rfl⟩
    simp [Reading.type, kindIn_undef, Model.stored]

/-! ### Elements -/

theorem matchAt_element (c : Char) (r : List Char) : matchAt [c!">", c!"(", c!" "] c r =
    if isWhite c then some (2, 1) else if c = '>' then some (0, 1) else if c = '(' then some (1, 1) else none := by
  unfold matchAt
  have h0 : List.idxOf [' '] [['>'], ['('], [' ']] = 2 := by decide
  simp only [List.contains_eq_mem, List.mem_cons, true_or, or_true, decide_true, Bool.true_and, h0]
  split
  · rfl
  · simp only [firstChunk, List.isPrefixOf_cons₂, List.isPrefixOf, Bool.and_true, beq_iff_eq]
    simp [eq_comm]

theorem blank_cons {g : List Char} (h : Gap g) : ∃ w g', g = w :: g' ∧ White w ∧ Blank g' := by
  obtain ⟨h1, h2⟩ := h
  cases g with
  | nil => exact absurd rfl h2
  | cons w g => exact ⟨w, g, rfl, h1 w (List.mem_cons_self ..), fun x hx => h1 x (List.mem_cons_of_mem _ hx)⟩

theorem Source.DtdName.skip {n : List Char} (h : DtdName n) {g : List Char} (hg : Blank g) (r : List Char) : skip (g ++ (n ++ r)) = n ++ r :=
  (plain_skip hg h.plain r).1

theorem element_or {d : Dtd} {g n g' g2 : List Char} {m : Model} (hg : Gap g) (hn : DtdName n) (hg' : Gap g') (hm : m.Valid) (hg2 : Blank g2)
    (rest : List Char) : parseElement d (c!"<!ELEMENT" ++ (g ++ (n ++ (g' ++ (m.chars ++ (g2 ++ '>' :: rest)))))) =
      if d.elements.any fun e => cmp (some e.name) (some n) then .error
      else .ok ({ d with elements := d.elements ++ [⟨n, m.stored⟩] }, rest) := by
  unfold parseElement
  rw [show skip (c!"<!ELEMENT" ++ (g ++ (n ++ (g' ++ (m.chars ++ (g2 ++ '>' :: rest)))))) =
    c!"<!ELEMENT" ++ (g ++ (n ++ (g' ++ (m.chars ++ (g2 ++ '>' :: rest))))) from skip_cons_not (not_white _), eat_append]
  simp only
  rw [hn.skip hg.1]
  obtain ⟨w, g'', rfl, hw, -⟩ := blank_cons hg'
  have hm1 : matchAt [c!">", c!"(", c!" "] w (g'' ++ (m.chars ++ (g2 ++ '>' :: rest))) = some (2, 1) := by
    rw [matchAt_element, if_pos ((white_iff w).2 hw)]
  rw [List.cons_append, getUntil_of hm1 n]
  · simp only
    rw [if_neg (by decide)]
    obtain ⟨s, h1, h2⟩ := elementType_of hm hg'.1 hg2 rest
    rw [List.cons_append] at h1
    rw [h1]
    simp only
    have : elementEnd s = some rest := by
      unfold elementEnd
      rw [h2]
      simp [inspect, List.isPrefixOf]
    rw [this, Parse.toStr_id hn.nul]
  · intro x c y hx
    have hc : c ∈ n := by rw [hx]; simp
    have h1 := hn.white c hc
    have h2 := (hn.1.2 c hc).2
    have h3 := hn.2 c hc
    rw [matchAt_element, if_neg (by rw [Bool.not_eq_true, white_false]; exact h1)]
    simp only [List.mem_cons, List.not_mem_nil, or_false, not_or] at h2 h3
    rw [if_neg h2.2.2.1, if_neg h3.2.2.1]

/-! ### Attributes -/

theorem matchAt_blank (c : Char) (r : List Char) : matchAt [c!" "] c r = if isWhite c then some (0, 1) else none := by
  unfold matchAt
  simp [firstChunk]

/-- A name up to a white space. -/
theorem getUntil_name {n g : List Char} (hn : ∀ c ∈ n, ¬ White c) (hg : Gap g) (r : List Char) :
    ∃ f, getUntil [c!" "] (n ++ (g ++ r)) = some f ∧ f.text = n ∧ f.at_ = g ++ r := by
  obtain ⟨w, g', rfl, hw, -⟩ := blank_cons hg
  refine ⟨_, getUntil_of (c := w) (r := g' ++ r) (i := 0) (n := 1) ?_ n ?_, rfl, rfl⟩
  · rw [matchAt_blank, if_pos ((white_iff w).2 hw)]
  · intro x c y hx
    rw [matchAt_blank, if_neg]
    rw [Bool.not_eq_true, white_false]
    exact hn c (by rw [hx]; simp)

theorem token_trimmed {t : Token} (h : t.Valid) : trimmed t.chars = some t.value := by
  have hnul : NUL ∉ t.chars := by
    simp only [Token.chars, List.mem_append, not_or]
    refine ⟨⟨fun hc => ?_, h.2.1.nul⟩, fun hc => ?_⟩
    · exact not_white NUL rfl (h.1 _ hc)
    · exact not_white NUL rfl (h.2.2 _ hc)
  obtain ⟨v, h1, h2⟩ := trimmed_some hnul
  rw [h1]
  have : Spec.Str.Trimmed t.chars t.value := by
    refine ⟨t.gap, t.gapEnd, rfl, h.1, h.2.2, fun c hc => ?_, fun c hc => ?_⟩
    · exact h.2.1.white c (List.mem_of_head? hc)
    · exact h.2.1.white c (List.mem_of_getLast? hc)
  rw [trimmed_unique h2 this]

theorem mapM_token : ∀ {ts : List Token}, (∀ t ∈ ts, t.Valid) → (ts.map Token.chars).mapM trimmed = some (ts.map (·.value))
  | [], _ => rfl
  | t :: ts, h => by
    have h1 := token_trimmed (h t (List.mem_cons_self ..))
    have h2 := mapM_token (ts := ts) fun x hx => h x (List.mem_cons_of_mem _ hx)
    simp [List.mapM_cons, h1, h2]

/-- A character that is not in a value. -/
theorem token_free {t : Token} (h : t.Valid) {c : Char} (hw : ¬ White c) (hc : c ∈ [',', '|', '(', ')', '+', '*', '%', '#', ';']) : c ∉ t.chars := by
  simp only [Token.chars, List.mem_append, not_or]
  exact ⟨⟨fun h' => hw (h.1 _ h'), fun h' => h.2.1.2 c h' hc⟩, fun h' => hw (h.2.2 _ h')⟩

theorem intercalate_flatMap (sep : Char) : ∀ (p : List Char) (ps : List (List Char)),
    List.intercalate [sep] (p :: ps) = p ++ ps.flatMap fun q => sep :: q
  | p, [] => by simp [List.intercalate]
  | p, q :: ps => by
    rw [intercalate_cons_ne (by simp), intercalate_flatMap sep q ps]
    simp

theorem enum_of {first : Token} {others : List Token} (h1 : first.Valid) (h2 : ∀ t ∈ others, t.Valid) :
    enumValues (first.chars ++ others.flatMap fun t => '|' :: t.chars) = some (first.value :: others.map (·.value)) := by
  have hall : ∀ t ∈ first :: others, t.Valid := by
    intro t ht
    rcases List.mem_cons.1 ht with rfl | ht
    · exact h1
    · exact h2 t ht
  have he : first.chars ++ others.flatMap (fun t => '|' :: t.chars) = List.intercalate c!"|" ((first :: others).map Token.chars) := by
    rw [List.map_cons, intercalate_flatMap, List.flatMap_map]
  have hne : first.chars ++ others.flatMap (fun t => '|' :: t.chars) ≠ [] := by
    have := h1.2.1.1.1
    simp [Token.chars, this]
  obtain ⟨ps, h3, h4⟩ := split_spec _ [c!"|"] hne
  have hsp : Spec.Str.Splits [c!"|"] (List.intercalate c!"|" ((first :: others).map Token.chars)) ((first :: others).map Token.chars) := by
    have hl := List.dropLast_concat_getLast (l := (first :: others).map Token.chars) (by simp)
    rw [← hl]
    have hfree : ∀ p ∈ (first :: others).map Token.chars, '|' ∉ p := by
      intro p hp
      obtain ⟨t, ht, rfl⟩ := List.mem_map.1 hp
      exact token_free (hall t ht) (not_white _) (by decide)
    have hinf : ∀ p : List Char, '|' ∉ p → ¬ c!"|" <:+: p := by
      rintro p hp ⟨a, b, rfl⟩
      simp at hp
    refine splits_of_intercalate _ (by decide) _ _ (fun p hp => ?_) (hinf _ (hfree _ (List.getLast_mem _)))
    rw [show (c!"|" : List Char).dropLast = [] from rfl, List.append_nil]
    exact hinf p (hfree p (List.dropLast_subset _ hp))
  unfold enumValues
  rw [h3]
  rw [he] at h4
  rw [splits_unique h4 hsp]
  exact mapM_token hall

theorem not_prefix_blank {a b : List Char} {w : Char} {r : List Char} {c : Char} (hw : White w) (hc : ¬ White c) :
    ¬ (a ++ c :: b) <+: a ++ w :: r := by
  rw [List.prefix_append_right_inj]
  intro h
  rw [List.cons_prefix_cons] at h
  exact hc (h.1 ▸ hw)

theorem attType_of {t : Typ} (ht : t.Valid) {g : List Char} (hg : Gap g) (r : List Char) :
    attType (t.chars ++ (g ++ r)) = .ok (t.type, g ++ r) := by
  obtain ⟨w, g', rfl, hw, -⟩ := blank_cons hg
  have hA : w ≠ 'R' ∧ w ≠ 'S' ∧ w ≠ 'Y' := by
    refine ⟨?_, ?_, ?_⟩ <;> rintro rfl <;> exact absurd hw (not_white _)
  obtain ⟨hR, hS, hY⟩ := hA
  unfold attType
  cases t with
  | enum first others =>
    simp only [Typ.chars, List.cons_append, List.append_assoc, List.nil_append]
    rw [eat_none.2 (by simp), eat_cons]
    simp only
    have hfree : ')' ∉ first.chars ++ others.flatMap fun t => '|' :: t.chars := by
      simp only [List.mem_append, List.mem_flatMap, List.mem_cons, not_or, not_exists, not_and]
      refine ⟨token_free ht.1 (not_white _) (by decide), fun t h => ⟨by decide, token_free (ht.2 t h) (not_white _) (by decide)⟩⟩
    have := getUntil_mark (mark := c!")") (by decide) (upTo_char.2 hfree) (rest := w :: (g' ++ r))
    simp only [List.append_assoc, List.cons_append, List.nil_append] at this
    rw [this]
    simp only
    have hnul : NUL ∉ first.chars ++ others.flatMap fun t => '|' :: t.chars := by
      have hz : ∀ t : Token, t.Valid → NUL ∉ t.chars := by
        intro t h
        simp only [Token.chars, List.mem_append, not_or]
        exact ⟨⟨fun hc => not_white NUL rfl (h.1 _ hc), h.2.1.nul⟩, fun hc => not_white NUL rfl (h.2.2 _ hc)⟩
      simp only [List.mem_append, List.mem_flatMap, List.mem_cons, not_or, not_exists, not_and]
      refine ⟨hz _ ht.1, fun t h => ⟨by decide, hz t (ht.2 t h)⟩⟩
    rw [Parse.toStr_id hnul, enum_of ht.1 ht.2]
    rfl
  | _ =>
    simp only [Typ.chars, List.cons_append, List.nil_append]
    simp [word, typeWords, eat_eq, List.isPrefixOf, hR, hS, hY, Ne.symm hR, Ne.symm hS, Ne.symm hY, Typ.type]

theorem quote_of {q : Char} (hq : q = '"' ∨ q = '\'') (r : List Char) : Parse.quote (q :: r) = some (q, r) := by
  unfold Parse.quote
  rcases hq with rfl | rfl
  · rw [eat_cons]
  · rw [eat_cons_ne (by decide), eat_cons]

theorem attrValue_of {q : Char} {v : List Char} (h : Quoted q v) (r : List Char) : Parse.attrValue q (v ++ q :: r) = (some v, r) := by
  unfold Parse.attrValue
  have := getUntil_mark (mark := [q]) (by rcases h.1 with rfl | rfl <;> decide) (upTo_char.2 h.2.1) (rest := r)
  simp only [List.append_assoc, List.cons_append, List.nil_append] at this
  rw [this]
  simp only
  rw [Parse.toStr_id h.2.2]

/-- What is after the definition of an attribute: white space or the end of the list. -/
theorem default_of {x : Default} (hx : x.Valid) {r : List Char} (hr : ∀ y z, skip r = y :: z → y ≠ '"' ∧ y ≠ '\'') :
    ∃ s, attDefault (x.chars ++ r) = some (x.defaults, s) ∧ ∃ s', attValue (skip s) = (x.content, s') ∧ skip s' = skip r := by
  have hno : attValue (skip r) = (none, skip r) := by
    unfold attValue
    rcases Parse.quote_spec (s := skip r) with h | ⟨q, y, h, hq, hs⟩
    · rw [h]
    · have := hr q y hs
      grind
  unfold attDefault
  cases x with
  | required => exact ⟨r, by rw [Default.chars, eat_append]; rfl, skip r, hno, skip_skip r⟩
  | implied => exact ⟨r, by
      rw [Default.chars, eat_none.2 (by simp), eat_append]; rfl, skip r, hno, skip_skip r⟩
  | value gap q v =>
    obtain ⟨hg, hv⟩ := hx
    have hqw : ¬ White q := by rcases hv.1 with rfl | rfl <;> exact not_white _
    have hval : attValue (skip (q :: (v ++ q :: r))) = (some v, r) := by
      rw [skip_cons_not hqw]
      unfold attValue
      rw [quote_of hv.1]
      exact attrValue_of hv r
    have hpk : (peek (q :: (v ++ q :: r)) c!"\"" || peek (q :: (v ++ q :: r)) c!"'") = true := by
      rcases hv.1 with rfl | rfl <;> simp [peek, eat_cons]
    cases gap with
    | none =>
      refine ⟨q :: (v ++ q :: r), ?_, r, hval, rfl⟩
      simp only [Default.chars, List.cons_append, List.append_assoc, List.nil_append]
      have hq : q ≠ '#' := by rcases hv.1 with rfl | rfl <;> decide
      have hf : attFixed (q :: (v ++ q :: r)) = (.implied, q :: (v ++ q :: r)) := by
        unfold attFixed
        rw [eat_none.2 (by simp [Ne.symm hq])]
      rw [eat_none.2 (by simp [Ne.symm hq]), eat_none.2 (by simp [Ne.symm hq])]
      simp only
      rw [hf]
      simp only
      rw [if_pos hpk]
      rfl
    | some g =>
      refine ⟨q :: (v ++ q :: r), ?_, r, hval, rfl⟩
      simp only [Default.chars, List.cons_append, List.append_assoc, List.nil_append]
      have hf : attFixed ('#' :: 'F' :: 'I' :: 'X' :: 'E' :: 'D' :: (g ++ q :: (v ++ q :: r))) = (.fixed, q :: (v ++ q :: r)) := by
        unfold attFixed
        rw [show ∀ r : List Char, eat ('#' :: 'F' :: 'I' :: 'X' :: 'E' :: 'D' :: r) c!"#FIXED" = some r from fun r => eat_append c!"#FIXED" r]
        simp only
        rw [skip_gap (hg g rfl) hqw]
      rw [eat_none.2 (by simp), eat_none.2 (by simp)]
      simp only
      rw [hf]
      simp only
      rw [if_pos hpk]
      rfl

theorem attlistLoop_skip {fuel : Nat} {d : Dtd} {decls : List AttDecl} {s s' : List Char} (h : skip s = skip s') :
    attlistLoop fuel d decls s = attlistLoop fuel d decls s' := by
  cases fuel with
  | zero => rfl
  | succ fuel => rw [attlistLoop, attlistLoop, h]

theorem idFine_of {decls : List AttDecl} {x : AttDecl} (h : DeclsFine (decls ++ [x])) : idFine (decls ++ [x]) x = true := by
  unfold idFine
  split
  · rename_i ht
    have hx : x ∈ decls ++ [x] := by simp
    rw [Bool.and_eq_true]
    constructor
    · split
      · rename_i first hf
        have h1 := List.mem_of_find?_eq_some hf
        have h2 := List.find?_some hf
        exact cmp_true.2 (h.oneId first h1 x hx (by simpa using h2) ht)
      · rfl
    · rcases h.notFixed x hx ht with h | h <;> simp [h]
  · rfl

theorem valueFine_of {x : AttDecl} (h : ∀ vs v, x.type = .enum vs → x.value = some v → v ∈ vs) : valueFine x.type x.value = true := by
  unfold valueFine
  split
  · rename_i vs v h1 h2
    rw [List.any_eq_true]
    exact ⟨v, h vs v h1 h2, cmp_true.2 rfl⟩
  · rfl

theorem DeclsFine.sub {a b : List AttDecl} (h : DeclsFine b) (hs : ∀ x ∈ a, x ∈ b) : DeclsFine a :=
  ⟨fun x hx y hy => h.oneId x (hs x hx) y (hs y hy), fun x hx => h.notFixed x (hs x hx), fun x hx => h.enums x (hs x hx)⟩

/-- The declarations read so far are the same. -/
structure Same (d d' : Dtd) : Prop where
  elements   : d'.elements = d.elements
  attributes : d'.attributes = d.attributes
  entities   : d'.entities = d.entities

theorem same_mark (d : Dtd) (t : AttType) : Same d (d.mark t) := by
  cases t <;> exact ⟨rfl, rfl, rfl⟩

theorem name_head {n : List Char} (h : IsName n) (r : List Char) : ∃ c r', n ++ r = c :: r' ∧ c ∈ n ∧ ¬ White c ∧ c ≠ '>' ∧ c ≠ '"' ∧ c ≠ '\'' := by
  obtain ⟨h1, h2⟩ := h
  cases n with
  | nil => exact absurd rfl h1
  | cons c n =>
    have h3 := h2 c (List.mem_cons_self ..)
    have h4 := h3.2
    simp only [List.mem_cons, List.not_mem_nil, or_false, not_or] at h4
    exact ⟨c, n ++ r, rfl, List.mem_cons_self .., h3.1, h4.2.2.1, h4.2.2.2.2.2.2.1, h4.2.2.2.2.2.1⟩

theorem typ_head (t : Typ) (r : List Char) : ∃ c r', t.chars ++ r = c :: r' ∧ ¬ White c ∧ c ≠ '%' := by
  cases t <;> exact ⟨_, _, rfl, not_white _, by decide⟩

theorem default_head {x : Default} (h : x.Valid) (r : List Char) : ∃ c r', x.chars ++ r = c :: r' ∧ ¬ White c := by
  cases x with
  | required => exact ⟨_, _, rfl, not_white _⟩
  | implied => exact ⟨_, _, rfl, not_white _⟩
  | value gap q v =>
    cases gap with
    | none => exact ⟨_, _, rfl, by rcases h.2.1 with rfl | rfl <;> exact not_white _⟩
    | some g => exact ⟨_, _, rfl, not_white _⟩

/-- One definition. -/
theorem attlistLoop_step {a : AttDef} (ha : a.Valid) {R : List Char} (hnext : ∀ y z, skip R = y :: z → y ≠ '"' ∧ y ≠ '\'') (fuel : Nat) (d : Dtd)
    (old : List AttDecl) : attlistLoop (fuel + 1) d old (a.chars ++ R) =
      if !idFine (old ++ [a.decl]) a.decl then .error
      else if !valueFine a.decl.type a.decl.value then .error
      else attlistLoop fuel (d.mark a.type.type) (old ++ [a.decl]) R := by
  simp only [AttDef.chars, List.append_assoc]
  rw [attlistLoop, ha.name.skip ha.gap.1]
  obtain ⟨c, r', h3, -, -, h4, -⟩ := name_head ha.name.1 (a.gapType ++ (a.type.chars ++ (a.gapDefault ++ (a.default.chars ++ R))))
  rw [show eat (a.name ++ (a.gapType ++ (a.type.chars ++ (a.gapDefault ++ (a.default.chars ++ R))))) c!">" = none by
    rw [h3]; exact eat_cons_ne h4]
  simp only
  obtain ⟨f, h5, h6, h7⟩ := getUntil_name ha.name.white ha.gapType (a.type.chars ++ (a.gapDefault ++ (a.default.chars ++ R)))
  rw [h5]
  simp only
  obtain ⟨c, r', h8, h9, h10⟩ := typ_head a.type (a.gapDefault ++ (a.default.chars ++ R))
  have hsk : skip f.at_ = a.type.chars ++ (a.gapDefault ++ (a.default.chars ++ R)) := by
    rw [h7, skip_blank ha.gapType.1, h8, skip_cons_not h9]
  rw [hsk]
  have hex : expand d (a.type.chars ++ (a.gapDefault ++ (a.default.chars ++ R))) = .ok (a.type.chars ++ (a.gapDefault ++ (a.default.chars ++ R))) := by
    unfold expand
    rw [h8, eat_cons_ne h10]
  rw [hex]
  simp only
  rw [attType_of ha.type ha.gapDefault]
  simp only
  obtain ⟨c, r', h11, h12⟩ := default_head ha.default R
  rw [show skip (a.gapDefault ++ (a.default.chars ++ R)) = a.default.chars ++ R by rw [skip_blank ha.gapDefault.1, h11, skip_cons_not h12]]
  obtain ⟨s, h13, s', h14, h15⟩ := default_of ha.default hnext
  rw [h13]
  simp only
  rw [h14]
  simp only
  rw [h6, Parse.toStr_id ha.name.nul]
  have hdecl : AttDecl.mk a.name a.type.type a.default.defaults a.default.content = a.decl := rfl
  rw [hdecl, attlistLoop_skip h15]
  rfl

/-- What follows a definition does not begin with a quote. -/
theorem defs_next {g : List Char} (hg : Blank g) (rest : List Char) : ∀ (defs : List AttDef), (∀ a ∈ defs, a.Valid) →
    ∀ y z, skip (defs.flatMap AttDef.chars ++ (g ++ '>' :: rest)) = y :: z → y ≠ '"' ∧ y ≠ '\'' := by
  intro defs hv y z hyz
  cases defs with
  | nil =>
    simp only [List.flatMap_nil, List.nil_append] at hyz
    rw [skip_gap hg (not_white _)] at hyz
    cases hyz
    decide
  | cons b defs =>
    have hb := hv b (by simp)
    simp only [List.flatMap_cons, AttDef.chars, List.append_assoc] at hyz
    rw [hb.name.skip hb.gap.1] at hyz
    obtain ⟨c, r', h3, -, -, -, h5, h6⟩ := name_head hb.name.1 (b.gapType ++ (b.type.chars ++ (b.gapDefault ++ (b.default.chars ++
      (List.flatMap AttDef.chars defs ++ (g ++ '>' :: rest))))))
    rw [h3] at hyz
    cases hyz
    exact ⟨h5, h6⟩

/-- The definitions are read, or one of them is refused; only those that break a constraint are. -/
theorem attlistLoop_or {g : List Char} (hg : Blank g) (rest : List Char) : ∀ (defs : List AttDef) (fuel : Nat) (d : Dtd) (old : List AttDecl),
    (∀ a ∈ defs, a.Valid) → defs.length < fuel →
    (∃ d', attlistLoop fuel d old (defs.flatMap AttDef.chars ++ (g ++ '>' :: rest)) = .ok (d', old ++ defs.map AttDef.decl, rest) ∧ Same d d') ∨
    (attlistLoop fuel d old (defs.flatMap AttDef.chars ++ (g ++ '>' :: rest)) = .error ∧ ¬ DeclsFine (old ++ defs.map AttDef.decl))
  | _, 0, _, _, _, h => by omega
  | [], fuel + 1, d, old, _, _ => by
    refine .inl ⟨d, ?_, rfl, rfl, rfl⟩
    simp only [List.flatMap_nil, List.nil_append, List.map_nil, List.append_nil]
    rw [attlistLoop, skip_gap hg (not_white _), eat_cons]
  | a :: defs, fuel + 1, d, old, hv, hl => by
    have ha := hv a (List.mem_cons_self ..)
    have hv' : ∀ x ∈ defs, x.Valid := fun x hx => hv x (List.mem_cons_of_mem _ hx)
    have hrest := attlistLoop_or hg rest defs fuel (d.mark a.type.type) (old ++ [a.decl]) hv' (by simpa using hl)
    rw [List.flatMap_cons, List.append_assoc, attlistLoop_step ha (defs_next hg rest defs hv')]
    have hin : ∀ x ∈ old ++ [a.decl], x ∈ old ++ (a :: defs).map AttDef.decl := by
      intro x hx
      simp only [List.mem_append, List.mem_singleton, List.map_cons, List.mem_cons] at hx ⊢
      grind
    by_cases h1 : idFine (old ++ [a.decl]) a.decl = true
    · by_cases h2 : valueFine a.decl.type a.decl.value = true
      · rw [h1, h2]
        simp only [Bool.not_true, Bool.false_eq_true, if_false]
        have happ : old ++ (a :: defs).map AttDef.decl = old ++ [a.decl] ++ defs.map AttDef.decl := by simp
        rw [happ]
        rcases hrest with ⟨d', h3, h4⟩ | ⟨h3, h4⟩
        · exact .inl ⟨d', h3, h4.1.trans (same_mark d _).1, h4.2.trans (same_mark d _).2, h4.3.trans (same_mark d _).3⟩
        · exact .inr ⟨h3, h4⟩
      · refine .inr ⟨?_, fun hf => h2 (valueFine_of ((hf.sub hin).enums a.decl (by simp)))⟩
        rw [h1, if_neg (by simp), if_pos (by simpa using h2)]
    · refine .inr ⟨?_, fun hf => h1 (idFine_of (hf.sub hin))⟩
      rw [if_pos (by simpa using h1)]

theorem attlist_or {fuel : Nat} {d : Dtd} {g n g' : List Char} {defs : List AttDef} (hg : Gap g) (hn : DtdName n) (hne : defs ≠ [])
    (hv : ∀ a ∈ defs, a.Valid) (hg' : Blank g') (hf : defs.length < fuel) (rest : List Char) :
    (∃ d', parseAttlist fuel d (g ++ (n ++ (defs.flatMap AttDef.chars ++ (g' ++ '>' :: rest)))) = .ok (d', rest) ∧
      d'.elements = d.elements ∧ d'.entities = d.entities ∧ d'.attributes = setDecls n (d.declsOf n ++ defs.map AttDef.decl) d.attributes) ∨
    (parseAttlist fuel d (g ++ (n ++ (defs.flatMap AttDef.chars ++ (g' ++ '>' :: rest)))) = .error ∧
      ¬ DeclsFine (d.declsOf n ++ defs.map AttDef.decl)) := by
  unfold parseAttlist
  rw [hn.skip hg.1]
  have hgap : ∃ g0 r0, defs.flatMap AttDef.chars ++ (g' ++ '>' :: rest) = g0 ++ r0 ∧ Gap g0 := by
    cases defs with
    | nil => exact absurd rfl hne
    | cons a defs =>
      have := (hv a (List.mem_cons_self ..)).gap
      simp only [List.flatMap_cons, AttDef.chars, List.append_assoc]
      exact ⟨a.gap, _, rfl, this⟩
  obtain ⟨g0, r0, h0, hg0⟩ := hgap
  obtain ⟨f, h1, h2, h3⟩ := getUntil_name hn.white hg0 r0
  rw [h0, h1]
  simp only
  rw [h3, ← h0, h2, Parse.toStr_id hn.nul]
  rcases attlistLoop_or hg' rest defs fuel d (d.declsOf n) hv hf with ⟨d', h4, h5⟩ | ⟨h4, h5⟩
  · rw [h4]
    refine .inl ⟨_, rfl, h5.elements, h5.entities, ?_⟩
    simp only
    rw [h5.attributes]
  · rw [h4]
    exact .inr ⟨rfl, h5⟩

/-! ### Entities -/

theorem entityContent_of {q : Char} {v : List Char} (h : Quoted q v) (r : List Char) :
    entityContent (q :: (v ++ q :: r)) = some (some v, r) := by
  unfold entityContent
  have h1 : q ≠ 'P' ∧ q ≠ 'S' := by rcases h.1 with rfl | rfl <;> decide
  rw [eat_none.2 (by simp [Ne.symm h1.1]), eat_none.2 (by simp [Ne.symm h1.2]), quote_of h.1]
  simp only
  rw [attrValue_of h]

/-- The white spaces and the mark of a parameter entity. -/
def percentChars : Option (List Char) → List Char
  | none => []
  | some g => '%' :: g

theorem entity_of {d : Dtd} {g n gv ge : List Char} {percent : Option (List Char)} {q : Char} {v : List Char} (hg : Gap g)
    (hp : ∀ g', percent = some g' → Gap g') (hn : DtdName n) (hgv : Gap gv) (hv : Quoted q v) (hge : Blank ge) (rest : List Char) :
    parseEntity d (c!"<!ENTITY" ++ (g ++ (percentChars percent ++ (n ++ (gv ++ q :: (v ++ q :: (ge ++ '>' :: rest))))))) =
      .ok ({ d with entities := d.entities ++ [⟨n, if percent.isSome then .parameter else .general, some v⟩] }, rest) := by
  unfold parseEntity
  rw [show skip (c!"<!ENTITY" ++ (g ++ (percentChars percent ++ (n ++ (gv ++ q :: (v ++ q :: (ge ++ '>' :: rest))))))) =
    c!"<!ENTITY" ++ (g ++ (percentChars percent ++ (n ++ (gv ++ q :: (v ++ q :: (ge ++ '>' :: rest)))))) from skip_cons_not (not_white _), eat_append]
  simp only
  have ht : entityType (g ++ (percentChars percent ++ (n ++ (gv ++ q :: (v ++ q :: (ge ++ '>' :: rest)))))) =
      (if percent.isSome then .parameter else .general, n ++ (gv ++ q :: (v ++ q :: (ge ++ '>' :: rest)))) := by
    unfold entityType
    cases percent with
    | none =>
      simp only [percentChars, List.nil_append]
      rw [hn.skip hg.1]
      obtain ⟨c, r', h1, h2, -⟩ := name_head hn.1 (gv ++ q :: (v ++ q :: (ge ++ '>' :: rest)))
      have hc : c ≠ '%' := by
        rintro rfl
        have := hn.2 _ h2
        simp at this
      rw [h1, eat_cons_ne hc]
      rfl
    | some g' =>
      simp only [percentChars, List.cons_append]
      rw [skip_gap hg.1 (not_white _), eat_cons]
      simp only
      rw [hn.skip (hp g' rfl).1]
      rfl
  rw [ht]
  simp only
  obtain ⟨f, h1, h2, h3⟩ := getUntil_name hn.white hgv (q :: (v ++ q :: (ge ++ '>' :: rest)))
  rw [h1]
  simp only
  have hqw : ¬ White q := by rcases hv.1 with rfl | rfl <;> exact not_white _
  rw [h3, skip_gap hgv.1 hqw, entityContent_of hv]
  simp only
  rw [skip_gap hge (not_white _), eat_cons]
  simp only
  rw [h2, Parse.toStr_id hn.nul]

/-! ### The whole -/

theorem dtdComments_of {t : List Char} (ht : Remarks t) {s : List Char} (hs : skip s = s) (hc : ¬ c!"<!--" <+: s) : dtdComments (t ++ s) = .ok s := by
  obtain ⟨ls, hm, hl⟩ := ht
  unfold dtdComments
  have h1 : (Parse.comments false ((t ++ s).length + 1) ⟨[], none, [], [], []⟩ (t ++ s)).Ends fun x => x.2 = s := by
    refine Parse.comments_only hm hl (fun fuel => ?_) _
    cases fuel with
    | zero => trivial
    | succ fuel =>
      rw [Parse.comments_none (by rw [hs]; exact hc) (by simp)]
      exact hs
  obtain ⟨⟨st, s1⟩, h2, h3⟩ := Parse.ends_sat h1 (Parse.comments_sat false _ _ _ (Nat.lt_succ_self _))
  rw [h2]
  simp only at h3 ⊢
  rw [h3]

/-- What was read of the declarations. -/
structure Has (ds : List (List Char × Decl)) (d : Dtd) : Prop where
  elements   : d.elements = (Subset.mk ds []).elements
  entities   : d.entities = (Subset.mk ds []).entities
  attributes : ∀ n, (d.attr n = none ∧ (Subset.mk ds []).attributes n = []) ∨
    (∃ al, d.attr n = some al ∧ al.name = n ∧ al.decls = (Subset.mk ds []).attributes n ∧ (Subset.mk ds []).attributes n ≠ [])

theorem Has.declsOf {ds : List (List Char × Decl)} {d : Dtd} (h : Has ds d) (n : List Char) : d.declsOf n = (Subset.mk ds []).attributes n := by
  unfold Dtd.declsOf
  rcases h.attributes n with ⟨h1, h2⟩ | ⟨al, h1, -, h2, -⟩
  · rw [h1, h2]
  · rw [h1]; exact h2

theorem decl_chars (x : Decl) : ∃ c r, x.chars = '<' :: '!' :: c :: r ∧ c ≠ '-' := by
  cases x with
  | element => exact ⟨_, _, rfl, by decide⟩
  | attlist => exact ⟨_, _, rfl, by decide⟩
  | entity g percent n gv q v ge => cases percent <;> exact ⟨_, _, rfl, by decide⟩

/-- One declaration: it is read, or refused if it breaks a constraint. -/
theorem declaration_or {fuel : Nat} {ds : List (List Char × Decl)} {d : Dtd} (h : Has ds d) {m : List Char} {x : Decl} (hv : x.Valid)
    (hf : x.chars.length < fuel) (rest : List Char) :
    (∃ d', declaration fuel d (x.chars ++ rest) = some (.ok (d', rest)) ∧ Has (ds ++ [(m, x)]) d') ∨
    (declaration fuel d (x.chars ++ rest) = some .error ∧
      ¬ (((Subset.mk (ds ++ [(m, x)]) []).elements.map (·.name)).Nodup ∧ ∀ n, DeclsFine ((Subset.mk (ds ++ [(m, x)]) []).attributes n))) := by
  cases x with
  | element g n g' model ge =>
    obtain ⟨h1, h2, h3, h4, h5⟩ := hv
    have := element_or (d := d) h1 h2 h3 h4 h5 rest
    have h6 : ∀ r, parseElement d (c!"<!ELEMENT" ++ (g ++ (n ++ (g' ++ (model.chars ++ (ge ++ '>' :: rest)))))) = r →
        declaration fuel d ((Decl.element g n g' model ge).chars ++ rest) = some r := by
      intro r hr
      unfold declaration
      have hch : (Decl.element g n g' model ge).chars ++ rest = c!"<!ELEMENT" ++ (g ++ (n ++ (g' ++ (model.chars ++ (ge ++ '>' :: rest))))) := by
        simp [Decl.chars]
      rw [hch, if_pos (peek_iff.2 ⟨_, rfl⟩), hr]
    by_cases hn : (d.elements.any fun e => cmp (some e.name) (some n)) = true
    · rw [if_pos hn] at this
      refine .inr ⟨h6 _ this, fun hnew => ?_⟩
      obtain ⟨e, he, hc⟩ := List.any_eq_true.1 hn
      rw [h.elements] at he
      have hnew := hnew.1
      simp only [Subset.elements, List.filterMap_append, List.map_append, List.nodup_append, List.filterMap_cons, List.filterMap_nil,
        List.map_cons, List.map_nil] at hnew
      exact hnew.2.2 n (List.mem_map.2 ⟨e, he, cmp_true.1 hc⟩) n (by simp) rfl
    · rw [if_neg hn] at this
      refine .inl ⟨_, h6 _ this, ?_, ?_, ?_⟩
      · simp [Subset.elements, h.elements]
      · simp [Subset.entities, h.entities]
      · intro n'
        have := h.attributes n'
        simpa [Subset.attributes, Dtd.attr] using this
  | attlist g n defs ge =>
    obtain ⟨h1, h2, h3, h4, h5⟩ := hv
    have hl : defs.length < fuel := by
      have hlen : defs.length ≤ (defs.flatMap AttDef.chars).length := by
        clear hf h3
        induction defs with
        | nil => simp
        | cons a defs ih =>
          have hg := List.length_pos_iff.2 (h4 a (List.mem_cons_self ..)).gap.2
          have := ih fun x hx => h4 x (List.mem_cons_of_mem _ hx)
          simp only [List.flatMap_cons, List.length_append, List.length_cons, AttDef.chars]
          omega
      simp only [Decl.chars, List.length_append] at hf
      omega
    have hold := h.declsOf n
    simp only [Subset.attributes] at hold
    have hd : ∀ r, parseAttlist fuel d (g ++ (n ++ (defs.flatMap AttDef.chars ++ (ge ++ '>' :: rest)))) = r →
        declaration fuel d ((Decl.attlist g n defs ge).chars ++ rest) = some r := by
      intro r hr
      unfold declaration
      simp only [Decl.chars, List.append_assoc, List.cons_append, List.nil_append]
      rw [if_neg (by rw [Bool.not_eq_true, peek_false]; simp)]
      rw [show ∀ r : List Char, eat ('<' :: '!' :: 'A' :: 'T' :: 'T' :: 'L' :: 'I' :: 'S' :: 'T' :: r) c!"<!ATTLIST" = some r from
        fun r => eat_append c!"<!ATTLIST" r]
      simp only
      rw [hr]
    rcases attlist_or (fuel := fuel) (d := d) h1 h2 h3 h4 h5 hl rest with ⟨d', h6, h7, h8, h9⟩ | ⟨h6, h7⟩
    rotate_left
    · refine .inr ⟨hd _ h6, fun hfine => h7 ?_⟩
      have hfn := hfine.2 n
      simp only [Subset.attributes, List.flatMap_append, List.flatMap_cons, List.flatMap_nil, List.append_nil, if_true] at hfn
      rw [← hold] at hfn
      exact hfn
    refine .inl ⟨d', hd _ h6, ?_, ?_, ?_⟩
    · rw [h7, h.elements]; simp [Subset.elements]
    · rw [h8, h.entities]; simp [Subset.entities]
    · intro n'
      unfold Dtd.attr
      rw [h9, setDecls_find]
      by_cases hn : n' = n
      · subst hn
        rw [if_pos rfl]
        refine .inr ⟨_, rfl, rfl, ?_, ?_⟩
        · rw [hold]; simp [Subset.attributes]
        · simp [Subset.attributes, h3]
      · rw [if_neg hn]
        have := h.attributes n'
        have hn' : n ≠ n' := fun h => hn h.symm
        simpa [Subset.attributes, Dtd.attr, hn'] using this
  | entity g percent n gv q v ge =>
    obtain ⟨h1, h2, h3, h4, h5, h6⟩ := hv
    have := entity_of (d := d) h1 h2 h3 h4 h5 h6 rest
    have hch : (Decl.entity g percent n gv q v ge).chars ++ rest =
        c!"<!ENTITY" ++ (g ++ (percentChars percent ++ (n ++ (gv ++ q :: (v ++ q :: (ge ++ '>' :: rest)))))) := by
      cases percent <;> simp [Decl.chars, percentChars]
    have h7 : ∀ r, parseEntity d (c!"<!ENTITY" ++ (g ++ (percentChars percent ++ (n ++ (gv ++ q :: (v ++ q :: (ge ++ '>' :: rest))))))) = .ok r →
        declaration fuel d ((Decl.entity g percent n gv q v ge).chars ++ rest) = some (.ok r) := by
      intro r hr
      unfold declaration
      rw [hch, if_neg (by rw [Bool.not_eq_true, peek_false]; simp), eat_none.2 (by simp)]
      simp only
      rw [if_pos (peek_iff.2 ⟨_, rfl⟩), hr]
    exact .inl ⟨_, h7 _ this, by
      refine ⟨?_, ?_, ?_⟩
      · simp [Subset.elements, h.elements]
      · simp [Subset.entities, h.entities]
      · intro n'
        have := h.attributes n'
        simpa [Subset.attributes, Dtd.attr] using this⟩

theorem fine_of {x : Subset} (h : x.Valid) (n : List Char) : DeclsFine (x.attributes n) := by
  refine ⟨h.oneId n, fun a ha ht => ?_, h.enums n⟩
  have := h.notFixed n a ha ht
  cases hd : a.defaults
  · exact .inl rfl
  · exact .inr rfl
  · exact absurd hd this

/-- What the declarations have to meet. -/
def Constraints (ds : List (List Char × Decl)) : Prop :=
  ((Subset.mk ds []).elements.map (·.name)).Nodup ∧ ∀ n, DeclsFine ((Subset.mk ds []).attributes n)

theorem Constraints.left {a b : List (List Char × Decl)} (h : Constraints (a ++ b)) : Constraints a := by
  refine ⟨?_, fun n => (h.2 n).sub ?_⟩
  · have hnew := h.1
    simp only [Subset.elements, List.filterMap_append, List.map_append] at hnew ⊢
    exact (List.nodup_append.1 hnew).1
  · intro a ha
    simp only [Subset.attributes, List.flatMap_append] at ha ⊢
    exact List.mem_append_left _ ha

/-- Declarations and what follows them. -/
theorem parseLoop_or {fuel : Nat} (rest : List Char) : ∀ (todo : List (List Char × Decl)) (done : List (List Char × Decl))
    (k : Nat) (d : Dtd), Has done d → (∀ p ∈ todo, Remarks p.1 ∧ p.2.Valid ∧ p.2.chars.length < fuel) →
    (∃ d', parseLoop fuel (k + todo.length) 0 d (todo.flatMap (fun p => p.1 ++ p.2.chars) ++ rest) = parseLoop fuel k 0 d' rest ∧ Has (done ++ todo) d') ∨
    (parseLoop fuel (k + todo.length) 0 d (todo.flatMap (fun p => p.1 ++ p.2.chars) ++ rest) = .error ∧ ¬ Constraints (done ++ todo))
  | [], done, k, d, h, _ => by
    rw [List.append_nil]
    exact .inl ⟨d, rfl, h⟩
  | (m, x) :: todo, done, k, d, h, hv => by
    obtain ⟨h1, h2, h3⟩ := hv (m, x) (List.mem_cons_self ..)
    have happ : done ++ (m, x) :: todo = (done ++ [(m, x)]) ++ todo := by simp
    rw [happ]
    obtain ⟨c, r, hc, hc2⟩ := decl_chars x
    simp only [List.flatMap_cons, List.append_assoc, List.length_cons]
    rw [← Nat.add_assoc, parseLoop]
    rw [if_neg (by rw [hc]; simp)]
    rw [dtdComments_of h1 (by rw [hc, List.cons_append, skip_cons_not (not_white _)]) (by rw [hc]; simp [Ne.symm hc2])]
    simp only
    rcases declaration_or (fuel := fuel) h (m := m) h2 h3 (todo.flatMap (fun p => p.1 ++ p.2.chars) ++ rest) with ⟨d1, h4, h5⟩ | ⟨h4, h5⟩
    · rw [h4]
      simp only
      rw [← List.append_assoc done [(m, x)] todo]
      exact parseLoop_or rest todo (done ++ [(m, x)]) k d1 h5 (fun p hp => hv p (List.mem_cons_of_mem _ hp))
    · rw [h4]
      refine .inr ⟨rfl, fun hc => h5 ?_⟩
      rw [← List.append_assoc] at hc
      exact hc.left

theorem parseLoop_of {fuel : Nat} {tail : List Char} (ht : Remarks tail) (todo done : List (List Char × Decl))
    (k : Nat) (d : Dtd) (h : Has done d) (hv : ∀ p ∈ todo, Remarks p.1 ∧ p.2.Valid ∧ p.2.chars.length < fuel) (hk : todo.length + 2 ≤ k) :
    (∃ d', parseLoop fuel k 0 d (todo.flatMap (fun p => p.1 ++ p.2.chars) ++ tail) = .ok d' ∧ Has (done ++ todo) d') ∨
    (parseLoop fuel k 0 d (todo.flatMap (fun p => p.1 ++ p.2.chars) ++ tail) = .error ∧ ¬ Constraints (done ++ todo)) := by
  obtain ⟨k', rfl⟩ : ∃ k', k = k' + 2 + todo.length := ⟨k - 2 - todo.length, by omega⟩
  rcases parseLoop_or (fuel := fuel) tail todo done (k' + 2) d h hv with ⟨d', h1, h2⟩ | h1
  · refine .inl ⟨d', ?_, h2⟩
    rw [h1, parseLoop]
    split
    · rfl
    · have := dtdComments_of ht (s := []) rfl (by simp)
      rw [List.append_nil] at this
      rw [this]
      simp only
      have hno : declaration fuel d' [] = none := by
        unfold declaration
        rw [if_neg (by decide)]
        rfl
      rw [hno]
      simp only
      rw [if_neg (by omega), parseLoop]
      rfl
  · exact .inr h1

theorem decl_length (x : Decl) : 0 < x.chars.length := by
  obtain ⟨c, r, h, -⟩ := decl_chars x
  rw [h]
  simp

theorem decls_length : ∀ (ds : List (List Char × Decl)), ds.length ≤ (ds.flatMap fun p => p.1 ++ p.2.chars).length ∧
    ∀ p ∈ ds, p.2.chars.length ≤ (ds.flatMap fun p => p.1 ++ p.2.chars).length := by
  intro ds
  induction ds with
  | nil => simp
  | cons p ds ih =>
    have := decl_length p.2
    simp only [List.flatMap_cons, List.length_append, List.length_cons, List.mem_cons, forall_eq_or_imp]
    refine ⟨by omega, by omega, fun q hq => ?_⟩
    have := ih.2 q hq
    omega

theorem has_new : Has [] Dtd.new := ⟨rfl, rfl, fun _ => .inl ⟨rfl, rfl⟩⟩

/-- The declarations of a text whose declarations are written as XML asks: what was written, or refused if it breaks a
constraint. -/
theorem declarations_or {x : Subset} (h : x.Written) {fuel : Nat} (hf : x.chars.length < fuel) :
    (∃ d, declarations fuel x.chars = .ok d ∧ x.Means d) ∨ (declarations fuel x.chars = .error ∧ ¬ Constraints x.decls) := by
  obtain ⟨hlen, hmem⟩ := decls_length x.decls
  simp only [Subset.chars, List.length_append] at hf
  rcases parseLoop_of (fuel := fuel) h.tail x.decls [] (fuel + 5) Dtd.new has_new
    (fun p hp => ⟨h.remarks p hp, h.decls p hp, by have := hmem p hp; omega⟩) (by omega) with ⟨d, h1, h2⟩ | h1
  · refine .inl ⟨d, h1, ?_, ?_, ?_⟩
    · simpa [Subset.elements] using h2.elements
    · simpa [Subset.entities] using h2.entities
    · intro n
      simpa [Subset.attributes] using h2.attributes n
  · exact .inr h1

theorem constraints_of {x : Subset} (h : x.Valid) : Constraints x.decls :=
  ⟨by simpa [Subset.elements] using h.names, fun n => by simpa [Subset.attributes] using fine_of h n⟩

/-- The declarations of a text written as XML asks. -/
theorem declarations_of {x : Subset} (h : x.Valid) {fuel : Nat} (hf : x.chars.length < fuel) :
    ∃ d, declarations fuel x.chars = .ok d ∧ x.Means d := by
  rcases declarations_or h.toWritten hf with h1 | ⟨-, h1⟩
  · exact h1
  · exact absurd (constraints_of h) h1

/-! The root -/

theorem isParentLoop_ne_error {name : List Char} : ∀ (fuel : Nat) (stack : List Part), isParentLoop name fuel stack ≠ .error
  | 0, _, h => by cases h
  | fuel + 1, [], h => by cases h
  | fuel + 1, .node t n :: stack, h => by
    rw [isParentLoop] at h
    split at h
    · cases h
    · split at h
      · cases h
      · exact isParentLoop_ne_error _ _ h
  | fuel + 1, .list k t items :: stack, h => by
    rw [isParentLoop] at h
    split at h
    · cases h
    · exact isParentLoop_ne_error _ _ h

theorem rootRound_ne_error : ∀ (es : List Element) (root : Element) (ch : Bool), rootRound es root ch ≠ .error
  | [], _, _, h => by cases h
  | e :: es, root, ch, h => by
    rw [rootRound] at h
    split at h
    · exact rootRound_ne_error _ _ _ h
    · exact rootRound_ne_error _ _ _ h
    · rename_i hp
      unfold isParent at hp
      split at hp
      · cases hp
      · split at hp
        · cases hp
        · exact isParentLoop_ne_error _ _ hp
    · cases h
    · cases h

theorem newRoot_ne_error (es : List Element) : ∀ (fuel : Nat) (root : Element), newRoot es fuel root ≠ .error
  | 0, _, h => by cases h
  | fuel + 1, root, h => by
    rw [newRoot] at h
    split at h
    · exact newRoot_ne_error es _ _ h
    · cases h
    · rename_i hr; exact rootRound_ne_error _ _ _ hr
    · cases h
    · cases h

theorem conclude_of {fuel : Nat} {d : Dtd} (hl : conclude fuel d ≠ .loop) (hid : d.haveIdRef = true → d.haveId = true) :
    ∃ root, conclude fuel d = .ok { d with root := root } := by
  have hno : ¬ (!d.haveId && d.haveIdRef) = true := by
    intro h
    simp only [Bool.and_eq_true, Bool.not_eq_true'] at h
    rw [hid h.2] at h
    cases h.1
  unfold conclude at hl ⊢
  simp only at hl ⊢
  split
  · rename_i root hr
    rw [if_neg hno]
    exact ⟨root, rfl⟩
  · rename_i hr
    split at hr
    · cases hr
    · split at hr
      · cases hr
      · rename_i h; exact absurd h (newRoot_ne_error _ _ _)
      · cases hr
      · cases hr
  · rename_i hr
    split at hr
    · cases hr
    · split at hr
      · cases hr
      · cases hr
      · rename_i h; exact absurd h (newRoot_ne_ub _ _ _)
      · cases hr
  · rename_i hr
    rw [hr] at hl
    exact absurd rfl hl

theorem attr_of_nodup {d : Dtd} (h : (d.attributes.map (·.name)).Nodup) {al : AttList} (ha : al ∈ d.attributes) : d.attr al.name = some al := by
  unfold Dtd.attr
  generalize d.attributes = als at h ha
  induction als with
  | nil => cases ha
  | cons x xs ih =>
    rw [List.map_cons, List.nodup_cons] at h
    rw [List.find?_cons]
    rcases List.mem_cons.1 ha with rfl | ha
    · simp
    · have : (x.name == al.name) = false := by
        simp only [beq_eq_false_iff_ne, ne_eq]
        intro hx
        exact h.1 (hx ▸ List.mem_map.2 ⟨al, ha, rfl⟩)
      rw [this]
      exact ih h.2 ha

/-- A text written as XML asks, whose elements are not within themselves. -/
theorem parse_of {x : Subset} (h : x.Valid) (hac : Acyclic x.elements) :
    ∃ N, ∀ fuel, N ≤ fuel → ∃ d, parse fuel x.chars = .ok d ∧ x.Means d := by
  obtain ⟨N, hN⟩ := conclude_ends hac
  refine ⟨N + x.chars.length + 1, fun fuel hf => ?_⟩
  obtain ⟨d, h1, h2⟩ := declarations_of h (fuel := fuel) (by omega)
  have hi : Inv d := parseLoop_inv inv_new h1
  have hid : d.haveIdRef = true → d.haveId = true := by
    intro hr
    obtain ⟨al, hal, a, ha, ht⟩ := hi.refs.1 hr
    have hex : ∃ n, ∃ a ∈ x.attributes n, a.type = .idref ∨ a.type = .idrefs := by
      rcases h2.attributes al.name with ⟨h3, -⟩ | ⟨al', h3, -, h4, -⟩
      · rw [attr_of_nodup hi.lists hal] at h3; cases h3
      · rw [attr_of_nodup hi.lists hal] at h3
        cases h3
        exact ⟨al.name, a, h4 ▸ ha, ht⟩
    obtain ⟨n, b, hb, hb2⟩ := h.resolved hex
    rcases h2.attributes n with ⟨-, h3⟩ | ⟨al', h3, -, h4, -⟩
    · rw [h3] at hb; cases hb
    · exact hi.ids.2 ⟨al', List.mem_of_find?_eq_some h3, b, h4 ▸ hb, hb2⟩
  obtain ⟨root, h3⟩ := conclude_of (hN d fuel h2.elements (by omega)) hid
  refine ⟨{ d with root := root }, ?_, h2.elements, h2.entities, h2.attributes⟩
  unfold parse
  rw [h1]
  exact h3

/-! ### The kinds of lists -/

theorem rep_congr {L L' : Word → Prop} (h : ∀ w, L w ↔ L' w) (t : Times) (w : Word) : Rep L t w ↔ Rep L' t w := by
  have : L = L' := funext fun w => propext (h w)
  rw [this]

theorem alt_single (p : Part) (w : Word) : AltLang [p] w ↔ p.Lang w := by simp [AltLang]

theorem seq_single (p : Part) (w : Word) : SeqLang [p] w ↔ p.Lang w := by simp [SeqLang]

theorem list_single (c : Prop) [Decidable c] (p : Part) (w : Word) : (if c then SeqLang [p] else AltLang [p]) w ↔ p.Lang w := by
  split
  · exact seq_single p w
  · exact alt_single p w

mutual
theorem cp_lang : ∀ (p : Cp), p.known → ∀ w, p.stored.Lang w ↔ p.part.Lang w
  | .name _ _ _ _, _, _ => Iff.rfl
  | .group g choice items t g', h, w => by
    rw [Cp.stored, Cp.part, Part.Lang, Part.Lang]
    refine rep_congr (fun w => ?_) t w
    obtain ⟨h1, h2⟩ := h
    rcases h2 with ⟨p, rfl⟩ | h2
    · rw [Cps.stored, Cps.parts, list_single, list_single]
      exact cp_lang p h1 w
    · rcases kind_cases items choice with hk | hk
      · exact absurd hk h2
      · rw [hk]
        cases choice
        · exact (cps_lang items h1 w).1
        · exact (cps_lang items h1 w).2
theorem cps_lang : ∀ (x : Cps), x.allKnown → ∀ w, (SeqLang x.stored w ↔ SeqLang x.parts w) ∧ (AltLang x.stored w ↔ AltLang x.parts w)
  | .last p, h, w => by
    simp only [Cps.stored, Cps.parts, seq_single, alt_single]
    exact ⟨cp_lang p h w, cp_lang p h w⟩
  | .more p next, h, w => by
    simp only [Cps.stored, Cps.parts, SeqLang, AltLang]
    constructor
    · constructor
      · rintro ⟨u, v, rfl, h1, h2⟩
        exact ⟨u, v, rfl, (cp_lang p h.1 u).1 h1, (cps_lang next h.2 v).1.1 h2⟩
      · rintro ⟨u, v, rfl, h1, h2⟩
        exact ⟨u, v, rfl, (cp_lang p h.1 u).2 h1, (cps_lang next h.2 v).1.2 h2⟩
    · rw [cp_lang p h.1 w, (cps_lang next h.2 w).2]
end

theorem names_stored : ∀ (x : Cps), x.names → x.stored = x.parts
  | .last p, h => by obtain ⟨g, n, g', rfl⟩ := h; rfl
  | .more p next, h => by
    obtain ⟨⟨g, n, g', rfl⟩, h⟩ := h
    simp only [Cps.stored, Cps.parts, names_stored next h]
    rfl

theorem model_same {m : Model} (hv : m.Valid) (h : m.Known) : SameContent m.stored m.says := by
  cases m with
  | empty => exact rfl
  | any => exact rfl
  | text => exact rfl
  | mixed g g' names =>
    intro w
    rw [names_stored names hv.2.2.2]
  | children choice items t =>
    intro w
    refine rep_congr (fun w => ?_) t w
    obtain ⟨h1, h2⟩ := h
    rcases h2 with ⟨p, rfl⟩ | h2
    · rw [Cps.stored, Cps.parts, list_single, list_single]
      exact cp_lang p h1 w
    · rw [if_neg h2]
      rcases kind_cases items choice with hk | hk
      · exact absurd hk h2
      · rw [hk]
        cases choice
        · exact (cps_lang items h1 w).1
        · exact (cps_lang items h1 w).2

theorem element_of_nodup {d : Dtd} (h : (d.elements.map (·.name)).Nodup) {e : Element} (he : e ∈ d.elements) :
    d.element e.name = some e := by
  unfold Dtd.element
  generalize d.elements = es at h he
  induction es with
  | nil => cases he
  | cons x xs ih =>
    rw [List.map_cons, List.nodup_cons] at h
    rw [List.find?_cons]
    rcases List.mem_cons.1 he with rfl | he
    · simp
    · have : (x.name == e.name) = false := by
        simp only [beq_eq_false_iff_ne, ne_eq]
        intro hx
        exact h.1 (hx ▸ List.mem_map.2 ⟨e, he, rfl⟩)
      rw [this]
      exact ih h.2 he

/-- What is found for an element that was written. -/
theorem found_of {x : Subset} (h : x.Valid) {d : Dtd} (hm : x.Means d) {before g n gm : List Char} {m : Model} {ge : List Char}
    (hx : (before, Decl.element g n gm m ge) ∈ x.decls) (hk : m.Known) : ∃ e, d.element n = some e ∧ SameContent e.type m.says := by
  have he : (⟨n, m.stored⟩ : Element) ∈ x.elements := List.mem_filterMap.2 ⟨_, hx, rfl⟩
  exact ⟨_, element_of_nodup (hm.elements ▸ h.names) (hm.elements ▸ he), model_same (h.decls _ hx).2.2.2.1 hk⟩

end Axl.Dtd
