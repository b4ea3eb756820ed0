/-
The parser over the memory (`Axl.Blocks`) does what the parser of `Axl.Parse` does, and its blocks end released or in the
document.
-/
import Verif.Proofs.MemStream
import Verif.Proofs.ParseHeader
import Verif.Proofs.StrEdit

namespace Axl
namespace Blocks
open Str

/-- The blocks of the factory stay. -/
def Keeps (w w' : World) : Prop := ∀ i b, w.heap i = some b → b.factory = true → w'.heap i = some b

theorem Keeps.rfl {w : World} : Keeps w w := fun _ _ h _ => h

theorem Keeps.trans {a b c : World} (h : Keeps a b) (k : Keeps b c) : Keeps a c := fun i x hx hf => k i x (h i x hx hf) hf

/-- What does not change in the memory while a part of the document is read. -/
structure Cfg where
  src    : List Char
  ask    : Bool
  enc    : Option (List Char)
  alone  : Bool
  header : Bool

/-- What is read ends with an instruction and blanks. -/
def AfterPi (src rest : List Char) : Prop := ∃ before blank, src = before ++ c!"?>" ++ blank ++ rest ∧ Spec.Xml.Blank blank

/-- The parse is at this place: the document read and the text not read yet.  A text kept by the stream is that of an
instruction just read. -/
def At (c : Cfg) (fac : Bool) (st : Parse.St) (rest : List Char) (w : World) : Prop :=
  ∃ ms d, Live c.src c.ask [] c.enc w ms d ∧ c.src.drop ms.index = rest ∧ d.st = st ∧ d.alone = c.alone ∧ d.header = c.header ∧
    ms.factory = fac ∧ (ms.lastChunk = none ∨ AfterPi c.src rest)

/-- The stream keeps no text. -/
def Clean (w : World) : Prop := ∀ ms, w.stream = some ms → ms.lastChunk = none

/-- A function over the memory does what one over the text does: `fl` is what it returns after an error. -/
def Ref {α β : Type} (c : Cfg) (fl : α) (ok : β → α → World → Prop) : Res β → Out α → Prop
  | .ok b, .ret a w => ok b a w
  | .error, .ret a w => a = fl ∧ Dead c.src c.ask w
  | .ub, .ub => True
  | .loop, .loop => True
  | _, _ => False

section
variable {c : Cfg} {fac : Bool} {st : Parse.St} {rest : List Char} {w : World}

theorem Ref.bind {α β γ δ : Type} {m : M α} {f : α → M γ} {r : Res β} {g : β → Res δ} {fl : α} {fl' : γ}
    {ok : β → α → World → Prop} {ok' : δ → γ → World → Prop} (h : Ref c fl ok r (m w))
    (he : ∀ w', f fl w' = .ret fl' w') (hf : ∀ b a w', ok b a w' → Ref c fl' ok' (g b) (f a w')) :
    Ref c fl' ok' (r >>= g) ((m >>= f) w) := by
  show Ref c fl' ok' (Res.bind r g) (M.bind m f w)
  unfold M.bind
  cases r with
  | ok b =>
    cases hm : m w with
    | ret a w' => rw [hm] at h; exact hf b a w' h
    | _ => rw [hm] at h; exact h.elim
  | error =>
    cases hm : m w with
    | ret a w' =>
      rw [hm] at h
      obtain ⟨rfl, hd⟩ := h
      simp only [he]
      exact ⟨rfl, hd⟩
    | _ => rw [hm] at h; exact h.elim
  | ub =>
    cases hm : m w with
    | ub => trivial
    | _ => rw [hm] at h; exact h.elim
  | loop =>
    cases hm : m w with
    | loop => trivial
    | _ => rw [hm] at h; exact h.elim

theorem Ref.imp {α β : Type} {fl : α} {ok ok' : β → α → World → Prop} {r : Res β} {o : Out α} (h : Ref c fl ok r o)
    (hi : ∀ b a w, ok b a w → ok' b a w) : Ref c fl ok' r o := by
  cases r <;> cases o <;> first | exact hi _ _ _ h | exact h

theorem Res.bind_ok {α : Type} (r : Res α) : (r >>= fun a => Res.ok a) = r := by cases r <;> rfl

theorem Live.setDoc {src : List Char} {ask : Bool} {tmp : List Nat} {enc : Option (List Char)} {ms : MStream} {d d' : MDoc}
    (h : Live src ask tmp enc w ms d) (he : d'.encoding = d.encoding) :
    Live src ask tmp enc { w with doc := some d' } ms d' :=
  ⟨h.stream, rfl, h.size, h.len, h.idx, h.mem, h.bytes, h.near, h.foll, h.linked, by rw [he]; exact h.owns, by
    have := h.enc
    unfold EncIs at *
    rw [he]
    exact this, h.errors⟩

theorem skip_at (h : At c fac st rest w) : ∃ w', skip w = .ret () w' ∧ At c fac st (Stream.skip rest) w' ∧ Keeps w w' := by
  obtain ⟨ms, d, hl, h1, h2, h3, h4, h5, h6⟩ := h
  obtain ⟨ms', e, k1, k2, _, _, k3, k4⟩ := skip_live hl
  refine ⟨_, e, ⟨ms', d, k1, by rw [k2, h1], h2, h3, h4, k3.trans h5, h6.imp k4.trans ?_⟩, fun _ _ h _ => h⟩
  rintro ⟨before, blank, e1, e2⟩
  obtain ⟨b, hb, e3, _⟩ := Stream.skip_spec rest
  refine ⟨before, blank ++ b, ?_, fun x hx => ?_⟩
  · rw [e1]
    conv => lhs; rw [e3]
    simp [List.append_assoc]
  · rcases List.mem_append.1 hx with hx | hx
    · exact e2 x hx
    · exact hb x hx

theorem inspect_at (h : At c fac st rest w) {chunk : List Char} (hc : NUL ∉ chunk) :
    ∃ r w', inspect chunk w = .ret r w' ∧ Keeps w w' ∧
      match Stream.inspect rest chunk with
      | .short => r = -1 ∧ w' = w
      | .no => r = 0 ∧ w' = w
      | .yes rest' => r = 1 ∧ At c fac st rest' w' ∧ Clean w' := by
  obtain ⟨ms, d, hl, h1, h2, h3, h4, h5, h6⟩ := h
  have hi := inspect_live hl hc
  rw [h1] at hi
  cases hs : Stream.inspect rest chunk with
  | short =>
    rw [hs] at hi
    exact ⟨_, _, hi, .rfl, rfl, rfl⟩
  | no =>
    rw [hs] at hi
    exact ⟨_, _, hi, .rfl, rfl, rfl⟩
  | yes rest' =>
    rw [hs] at hi
    obtain ⟨w', ms', e, k1, k2, k3, k4, k5⟩ := hi
    refine ⟨_, _, e, k4, rfl, ⟨ms', d, k1, k2.symm, h2, h3, h4, k3.trans h5, .inl k5⟩, fun m hm => ?_⟩
    rw [k1.stream] at hm
    cases hm
    exact k5

theorem eat_at (h : At c fac st rest w) {chunk : List Char} (hc : NUL ∉ chunk) :
    ∃ r w', inspect chunk w = .ret r w' ∧ Keeps w w' ∧
      match Stream.eat rest chunk with
      | none => ¬ r > 0 ∧ At c fac st rest w'
      | some rest' => r > 0 ∧ At c fac st rest' w' ∧ Clean w' := by
  obtain ⟨r, w', e, hk, hm⟩ := inspect_at h hc
  refine ⟨r, w', e, hk, ?_⟩
  unfold Stream.eat
  cases hs : Stream.inspect rest chunk with
  | short =>
    rw [hs] at hm
    obtain ⟨rfl, rfl⟩ := hm
    exact ⟨by omega, h⟩
  | no =>
    rw [hs] at hm
    obtain ⟨rfl, rfl⟩ := hm
    exact ⟨by omega, h⟩
  | yes rest' =>
    rw [hs] at hm
    exact ⟨by omega, hm.2⟩

theorem peek_at (h : At c fac st rest w) {chunk : List Char} (hc : NUL ∉ chunk) :
    ∃ r w', peek chunk w = .ret r w' ∧ At c fac st rest w' ∧ Keeps w w' ∧
      match Stream.eat rest chunk with
      | none => ¬ r > 0
      | some rest' => r > 0 ∧ ∃ w'', accept w' = .ret () w'' ∧ At c fac st rest' w'' := by
  obtain ⟨ms, d, hl, h1, h2, h3, h4, h5, h6⟩ := h
  obtain ⟨r, p, e, hm⟩ := peek_live hl hc
  rw [h1] at hm
  have hL := hl.setStream (ms' := { ms with prev := p }) (.inl rfl) rfl hl.idx hl.mem rfl rfl rfl rfl
  refine ⟨r, _, e, ⟨_, d, hL, h1, h2, h3, h4, h5, h6⟩, fun _ _ h _ => h, ?_⟩
  cases hs : Stream.eat rest chunk with
  | none =>
    rw [hs] at hm
    exact hm
  | some rest' =>
    rw [hs] at hm
    obtain ⟨k1, k2, k3, k4⟩ := hm
    obtain ⟨w'', e2, k5, _, _⟩ := accept_spec hL k3
    exact ⟨k1, w'', e2, _, d, k5, k4.symm, h2, h3, h4, h5, .inl rfl⟩

theorem getD_at (h : At c fac st rest w) : ∃ d, getD w = .ret d w ∧ d.st = st ∧ d.header = c.header := by
  obtain ⟨ms, d, hl, h1, h2, h3, h4, h5, h6⟩ := h
  exact ⟨d, getD_eq hl.doc, h2, h4⟩

theorem getS_at (h : At c fac st rest w) : ∃ s, getS w = .ret s w ∧ s.size - s.index = rest.length ∧ (s.index < s.size ↔ rest ≠ []) := by
  obtain ⟨ms, d, hl, h1, h2, h3, h4, h5, h6⟩ := h
  have := drop_length_eq hl
  rw [h1] at this
  refine ⟨ms, getS_eq hl.stream, this.symm, ?_⟩
  rw [← List.length_pos_iff]
  omega

theorem modTree_at (h : At c fac st rest w) (f : Parse.St → Parse.St) :
    ∃ w', modTree f w = .ret () w' ∧ At c fac (f st) rest w' ∧ w'.heap = w.heap := by
  obtain ⟨ms, d, hl, h1, h2, h3, h4, h5, h6⟩ := h
  have hL := hl.setDoc (d' := { d with st := f d.st }) rfl
  refine ⟨_, ?_, ⟨ms, _, hL, h1, by rw [← h2], h3, h4, h5, h6⟩, rfl⟩
  unfold modTree
  rw [bind_ret (getD_eq hl.doc)]
  rfl

theorem setAlloc_at (h : At c fac st rest w) (f : Bool) :
    ∃ w', setAlloc f w = .ret () w' ∧ At c f st rest w' ∧ w'.heap = w.heap := by
  obtain ⟨ms, d, hl, h1, h2, h3, h4, h5, h6⟩ := h
  have hL := hl.setStream (ms' := { ms with factory := f }) (.inl rfl) rfl hl.idx hl.mem rfl rfl rfl rfl
  refine ⟨_, ?_, ⟨_, d, hL, h1, h2, h3, h4, rfl, h6⟩, rfl⟩
  unfold setAlloc
  rw [bind_ret (getS_eq hl.stream)]
  rfl

theorem remains_at (h : At c fac st rest w) : remains w = .ret (decide (rest ≠ [])) w := by
  obtain ⟨s, e, _, h2⟩ := getS_at h
  unfold remains
  rw [bind_ret e, pure_eq]
  simp [h2]

theorem fail_at (h : At c fac st rest w) {code : Int} {text : List Char} (hc : code < 0) (ht : text ≠ []) :
    ∃ w', fail code text w = .ret () w' ∧ Dead c.src c.ask w' := by
  obtain ⟨ms, d, hl, _⟩ := h
  obtain ⟨w', e, k1, k2⟩ := fail_spec hl hc ht
  exact ⟨w', e, .inl k1.all, k2⟩

/-- A failure, and what the function returns. -/
theorem fail_ref {α β : Type} (h : At c fac st rest w) {code : Int} {text : List Char} (hc : code < 0) (ht : text ≠ []) (fl : α)
    (ok : β → α → World → Prop) : Ref c fl ok .error ((do fail code text; pure fl : M α) w) := by
  obtain ⟨w', e, hd⟩ := fail_at h hc ht
  rw [bind_ret e]
  exact ⟨rfl, hd⟩

theorem fail_live {α β : Type} {ms : MStream} {d : MDoc} (h : Live c.src c.ask [] c.enc w ms d) {code : Int} {text : List Char}
    (hc : code < 0) (ht : text ≠ []) (fl : α) (ok : β → α → World → Prop) :
    Ref c fl ok .error ((do fail code text; pure fl : M α) w) := by
  obtain ⟨w', e, k1, k2⟩ := fail_spec h hc ht
  rw [bind_ret e]
  exact ⟨rfl, .inl k1.all, k2⟩

/-- The chunk that was found is between the text and what follows. -/
theorem found_chunk {chunks : List (List Char)} {s : List Char} {f : Stream.Found} (h : Stream.getUntil chunks s = some f)
    {m : List Char} (hk : chunks[f.chunk]? = some m) (hm : m ≠ [' ']) : s = f.text ++ m ++ f.after := by
  obtain ⟨x, r, n, h1, h2, h3, h4, _⟩ := Stream.getUntil_some h
  have hf : ∀ {cs : List (List Char)} {i k : Nat}, Stream.firstChunk (x :: r) i cs = some (k, n) →
      i ≤ k ∧ ∃ y, cs[k - i]? = some y ∧ y <+: x :: r ∧ n = y.length := by
    intro cs
    induction cs with
    | nil => intro i k h; cases h
    | cons y ys ih =>
      intro i k h
      simp only [Stream.firstChunk] at h
      split at h
      · rename_i hp
        cases h
        exact ⟨Nat.le_refl _, y, by simp, List.isPrefixOf_iff_prefix.1 hp.2.2, rfl⟩
      · obtain ⟨k1, y', k2, k3⟩ := ih h
        refine ⟨by omega, y', ?_, k3⟩
        rw [show k - i = (k - (i + 1)) + 1 by omega]
        simpa using k2
  unfold Stream.matchAt at h3
  split at h3
  · rename_i hw
    simp only [Option.some.injEq, Prod.mk.injEq] at h3
    have hlt := List.idxOf_lt_length_of_mem (List.contains_iff_mem.1 (Bool.and_eq_true_iff.1 hw).1)
    rw [← h3.1] at hk
    rw [List.getElem?_eq_getElem hlt] at hk
    simp only [Option.some.injEq] at hk
    have := List.getElem_idxOf hlt
    rw [this] at hk
    exact absurd hk.symm hm
  · obtain ⟨_, y, k2, ⟨z, k3⟩, k4⟩ := hf h3
    rw [Nat.sub_zero, hk] at k2
    cases k2
    rw [h2, h4, ← k3, k4, List.drop_left, List.append_assoc]

theorem drop_after {src : List Char} {i : Nat} {a b : List Char} (h : src.drop i = a ++ b) : ∃ p, src = p ++ b :=
  ⟨src.take i ++ a, by rw [List.append_assoc, ← h, List.take_append_drop]⟩

/-- A text read for the document. -/
theorem give_at (h : At c true st rest w) {chunks : List (List Char)} (hc : ∀ x ∈ chunks, NUL ∉ x) (acc : Bool) :
    match Stream.getUntil chunks rest with
    | none => getUntil acc chunks w = .ret none w
    | some f => ∃ id w' ms', getUntil acc chunks w = .ret (some (id, f.chunk)) w' ∧ w'.stream = some ms' ∧ ms'.factory = true ∧
        (∀ fac, At c fac st (if acc then f.after else f.at_) { w' with stream := some { ms' with lastChunk := none, factory := fac } }) ∧
        w'.heap id = some ⟨f.text ++ [NUL], true⟩ ∧ Keeps w w' := by
  obtain ⟨ms, d, hl, h1, h2, h3, h4, h5, h6⟩ := h
  have hg := getUntil_give hl hc h5 acc true
  rw [h1] at hg
  cases hs : Stream.getUntil chunks rest with
  | none =>
    rw [hs] at hg
    exact hg
  | some f =>
    rw [hs] at hg
    obtain ⟨id, w', ms', k1, k2, k3, k4, k5, k6, k7⟩ := hg
    refine ⟨id, w', ms', k1, k2, k6, fun fac => ?_, k4, k7⟩
    have hL := k3.setStream (ms' := { ms' with lastChunk := none, factory := fac }) (.inl rfl) rfl k3.idx k3.mem rfl rfl rfl rfl
    exact ⟨_, d, hL, k5, h2, h3, h4, rfl, .inl rfl⟩

theorem nullify_run {ms : MStream} (h : w.stream = some ms) : nullify w = .ret () { w with stream := some { ms with lastChunk := none } } := by
  unfold nullify
  rw [bind_ret (getS_eq h)]
  rfl

theorem setAlloc_run {ms : MStream} (h : w.stream = some ms) (f : Bool) :
    setAlloc f w = .ret () { w with stream := some { ms with factory := f } } := by
  unfold setAlloc
  rw [bind_ret (getS_eq h)]
  rfl

/-- A text read where it is in the memory. -/
theorem ref_at (h : At c fac st rest w) {chunks : List (List Char)} (hc : ∀ x ∈ chunks, NUL ∉ x) :
    match Stream.getUntilRef chunks rest with
    | (none, rest') => ∃ w', getUntilRef chunks w = .ret none w' ∧ At c fac st rest' w'
    | (some text, rest') => ∃ start w' ms d tail, getUntilRef chunks w = .ret (some (start, text.length)) w' ∧
        Live c.src c.ask [] c.enc w' ms d ∧ c.src.drop ms.index = rest' ∧ d.st = st ∧ d.alone = c.alone ∧ d.header = c.header ∧
        ms.factory = fac ∧ ms.lastChunk = none ∧ text ≠ [] ∧ ms.mem.drop start = text ++ NUL :: tail ∧ start + text.length < ms.index := by
  obtain ⟨ms, d, hl, h1, h2, h3, h4, h5, h6⟩ := h
  have hg := getUntilRef_live hl hc
  rw [h1] at hg
  unfold Stream.getUntilRef
  cases hs : Stream.getUntil chunks rest with
  | none =>
    rw [hs] at hg
    exact ⟨w, hg, ms, d, hl, h1, h2, h3, h4, h5, h6⟩
  | some f =>
    rw [hs] at hg
    obtain ⟨w', ms', k1, k2, k3, k4, k5, k6, k7, k8⟩ := hg
    by_cases ht : f.text = []
    · simp only [ht, if_true] at k1 ⊢
      exact ⟨w', k1, ms', d, k2, k3, h2, h3, h4, k4.trans h5, .inl k8⟩
    · simp only [ht, if_false] at k1 ⊢
      refine ⟨ms.index, w', ms', d, (f.at_ ++ [NUL]).drop 1, k1, k2, k3, h2, h3, h4, k4.trans h5, k8, ht, ?_, k6⟩
      have hle : ms.index ≤ ms.mem.length := by
        have := hl.len
        have := hl.idx
        omega
      rw [k5, List.drop_set, if_neg (by omega), show ms.index + f.text.length - ms.index = f.text.length by omega, k7]
      exact set_append_nul f.text (f.at_ ++ [NUL]) (by simp)

theorem toLower_nul {x : Char} : toLower x = NUL ↔ x = NUL := by
  unfold toLower
  split
  · rename_i h
    have h1 : 'A'.toNat = 65 := rfl
    have h2 : 'Z'.toNat = 90 := rfl
    rw [h1, h2] at h
    constructor
    · intro e
      have e2 := congrArg Char.toNat e
      have hv : Nat.isValidChar (x.toNat + 32) := Or.inl (by omega)
      have : (Char.ofNat (x.toNat + 32)).toNat = x.toNat + 32 := by
        unfold Char.ofNat
        simp only [hv, dite_true]
        simp only [Char.ofNatAux, Char.toNat]
        rfl
      rw [this] at e2
      have : NUL.toNat = 0 := rfl
      omega
    · intro e
      rw [e] at h
      have : NUL.toNat = 0 := rfl
      omega
  · exact Iff.rfl

theorem toStr_lower (t : List Char) : toStr ((toStr t ++ [NUL]).map toLower) = toLowerStr (toStr t) := by
  have : ∀ u : List Char, NUL ∉ u → toStr ((u ++ [NUL]).map toLower) = toLowerStr u := by
    intro u
    induction u with
    | nil => intro _; decide
    | cons a u ih =>
      intro h
      simp only [List.mem_cons, not_or] at h
      have hn : toLower a ≠ NUL := fun e => h.1 (toLower_nul.1 e).symm
      have := ih h.2
      unfold toStr toLowerStr at *
      simp only [List.cons_append, List.map_cons, List.takeWhile_cons, ne_eq, hn, not_false_eq_true, decide_true, if_true, this]
  exact this _ (Parse.nul_cstr t)

theorem toStr_toStr (t : List Char) : toStr (toStr t) = toStr t := by
  have := toStr_spec (toStr t) [] (Parse.nul_cstr t)
  rwa [toStr_snoc] at this

section
variable {src : List Char} {ask : Bool} {tmp : List Nat} {enc : Option (List Char)} {ms : MStream} {d : MDoc}

/-- A block was allocated and released. -/
theorem Live.bump (h : Live src ask tmp enc w ms d) (n : Nat) (hn : w.next ≤ n) :
    Live src ask tmp enc { w with next := n } ms d :=
  ⟨h.stream, h.doc, h.size, h.len, h.idx, h.mem, h.bytes, h.near, h.foll, h.linked,
    ⟨h.owns.nodup, h.owns.live, h.owns.only, fun i hi => h.owns.fresh i (by simp only at hi; omega)⟩, h.enc, h.errors⟩

/-- A block for some time. -/
theorem Live.addTmp (h : Live src ask [] enc w ms d) (data : List Char) :
    Live src ask [w.next] enc { w with heap := fun i => if i = w.next then some ⟨data, false⟩ else w.heap i, next := w.next + 1 } ms d := by
  refine ⟨h.stream, h.doc, h.size, h.len, h.idx, h.mem, h.bytes, h.near, h.foll, h.linked, ?_, h.enc.set h.enc_lt _, h.errors⟩
  refine (h.owns.alloc data).perm ?_
  rw [← List.append_assoc, ← List.append_assoc]
  simpa using (List.perm_append_comm (l₁ := [w.next]) (l₂ := ms.lastChunk.toList ++ d.encoding.toList))

/-- It is released. -/
theorem Live.dropTmp {n : Nat} (h : Live src ask [n] enc w ms d) :
    free n w = .ret () { w with heap := fun i => if i = n then none else w.heap i } ∧
      Live src ask [] enc { w with heap := fun i => if i = n then none else w.heap i } ms d := by
  have hp : Owns w.heap w.next (n :: (ms.lastChunk.toList ++ (d.encoding.toList ++ []))) := by
    refine h.owns.perm ?_
    rw [← List.append_assoc, ← List.append_assoc]
    simpa using (List.perm_append_comm (l₁ := [n]) (l₂ := ms.lastChunk.toList ++ d.encoding.toList)).symm
  obtain ⟨data, hd⟩ := hp.live n (by simp)
  refine ⟨by simp [free, hd], h.stream, h.doc, h.size, h.len, h.idx, h.mem, h.bytes, h.near, h.foll, h.linked, hp.free, ?_, h.errors⟩
  refine h.enc.free fun e => (List.nodup_cons.1 hp.nodup).1 ?_
  simp [e]

end

theorem addTo_top (st : Parse.St) (l : Leaf) : addTo st (top st) l = st.addLeaf l := by
  unfold addTo top Parse.St.addLeaf
  cases st with
  | mk opened root pis preserve noValue =>
    cases opened with
    | nil => rfl
    | cons o os =>
      simp only [reduceCtorEq, if_false, List.length_cons, List.mapIdx_cons, Nat.zero_add, if_true]
      congr 2
      refine List.ext_getElem? fun i => ?_
      rw [List.getElem?_mapIdx]
      cases hi : os[i]? with
      | none => rfl
      | some x =>
        simp only [Option.map_some, Option.some.injEq]
        rw [if_neg (by omega)]

theorem top_addLeaf (st : Parse.St) (l : Leaf) : top (st.addLeaf l) = top st := by
  unfold top Parse.St.addLeaf
  cases st with
  | mk opened root pis preserve noValue => cases opened <;> rfl

theorem top_addPI (st : Parse.St) (p : PI) : top (st.addPI p) = top st := by
  unfold Parse.St.addPI
  split
  · rfl
  · exact top_addLeaf st _

theorem addPI_run {d : MDoc} (hd : w.doc = some d) (p : PI) :
    addPI (top d.st) p w = .ret () { w with doc := some { d with st := d.st.addPI p } } := by
  cases ho : d.st.opened with
  | nil =>
    have ht : top d.st = none := by simp [top, ho]
    have : d.st.addPI p = { d.st with pis := d.st.pis ++ [p] } := by simp [Parse.St.addPI, ho]
    rw [ht, this]
    simp only [addPI, modTree]
    rw [bind_ret (getD_eq hd)]
    rfl
  | cons o os =>
    have ht : top d.st = some d.st.opened.length := by simp [top, ho]
    have : d.st.addPI p = addTo d.st (some d.st.opened.length) (.pi p) := by
      rw [← ht, addTo_top]
      simp [Parse.St.addPI, ho]
    rw [this, ht]
    simp only [addPI, modTree]
    rw [bind_ret (getD_eq hd)]
    rfl

theorem strdup_run {id : Nat} {t : List Char} {fac : Bool} (h : w.heap id = some ⟨t ++ [NUL], fac⟩) :
    strdup id w = .ret w.next { w with heap := fun i => if i = w.next then some ⟨toStr t ++ [NUL], false⟩ else w.heap i, next := w.next + 1 } := by
  unfold strdup
  rw [bind_ret (readStr_eq h)]
  rfl

/-- The copy of the target in lower case, made and released. -/
theorem lower_run {β : Type} {src : List Char} {ask : Bool} {enc : Option (List Char)} {ms : MStream} {d : MDoc}
    (hl : Live src ask [] enc w ms d) {id : Nat} {t : List Char} {fac : Bool} (h : w.heap id = some ⟨t ++ [NUL], fac⟩)
    (f : List Char → M β) :
    (do
      let copy ← strdup id
      let low ← readBlock copy
      writeBlock copy (low.map toLower)
      let t ← readStr copy
      free copy
      f t) w = f (toLowerStr (toStr t)) { w with next := w.next + 1 } := by
  rw [bind_ret (strdup_run h)]
  rw [bind_ret (m := readBlock w.next) (a := toStr t ++ [NUL]) (w' := { w with heap := fun i => if i = w.next then some ⟨toStr t ++ [NUL], false⟩ else w.heap i, next := w.next + 1 }) (by simp [readBlock])]
  rw [bind_ret (m := writeBlock w.next _) (a := ()) (w' := { w with heap := fun i => if i = w.next then some ⟨(toStr t ++ [NUL]).map toLower, false⟩ else w.heap i, next := w.next + 1 }) (by
    simp only [writeBlock, if_true]
    congr 2
    funext i
    split <;> rfl)]
  rw [bind_ret (m := readStr w.next) (a := toLowerStr (toStr t)) (w' := { w with heap := fun i => if i = w.next then some ⟨(toStr t ++ [NUL]).map toLower, false⟩ else w.heap i, next := w.next + 1 }) (by
    have := readStr_eq (w := { w with heap := fun i => if i = w.next then some ⟨(toStr t ++ [NUL]).map toLower, false⟩ else w.heap i, next := w.next + 1 }) (id := w.next) (t := (toStr t).map toLower) (fac := false) (by simp; decide)
    rw [this]
    congr 1
    rw [← toStr_snoc]
    have h2 := toStr_lower t
    rw [List.map_append] at h2
    exact h2)]
  rw [bind_ret (m := free w.next) (a := ()) (w' := { w with next := w.next + 1 }) (by
    simp only [free, if_true, Bool.false_eq_true, if_false]
    congr 2
    funext i
    split
    · rename_i h
      rw [h, hl.owns.fresh _ (Nat.le_refl _)]
    · rfl)]

/-- What a function that reads items does. -/
def ItemsOk (c : Cfg) (st : Parse.St) (b : Parse.St × List Char) (a : Bool) (w : World) : Prop :=
  a = true ∧ At c false b.1 b.2 w ∧ top b.1 = top st

/-- What follows an instruction. -/
theorem after_pi {src : List Char} {i : Nat} {more : List (List Char)} {f : Stream.Found}
    (h : Stream.getUntil (c!" ?>" :: c!"?>" :: more) (src.drop i) = some f)
    (hk : ∀ k, f.chunk = k → k < 2) : AfterPi src f.after := by
  have := hk _ rfl
  have hc : f.chunk = 0 ∨ f.chunk = 1 := by omega
  rcases hc with hc | hc
  · have e := found_chunk h (m := c!" ?>") (by simp [hc]) (by decide)
    refine ⟨src.take i ++ f.text ++ [' '], [], ?_, fun _ h => by cases h⟩
    conv => lhs; rw [← List.take_append_drop i src, e]
    simp
  · have e := found_chunk h (m := c!"?>") (by simp [hc]) (by decide)
    refine ⟨src.take i ++ f.text, [], ?_, fun _ h => by cases h⟩
    conv => lhs; rw [← List.take_append_drop i src, e]
    simp

theorem found_lt {chunks : List (List Char)} {s : List Char} {f : Stream.Found} (h : Stream.getUntil chunks s = some f) :
    f.chunk < chunks.length := by
  obtain ⟨x, r, n, h1, h2, h3, h4, _⟩ := Stream.getUntil_some h
  have hf : ∀ {cs : List (List Char)} {i k : Nat}, Stream.firstChunk (x :: r) i cs = some (k, n) → k < i + cs.length := by
    intro cs
    induction cs with
    | nil => intro i k h; cases h
    | cons y ys ih =>
      intro i k h
      simp only [Stream.firstChunk] at h
      split at h
      · cases h
        simp
      · have := ih h
        simp only [List.length_cons]
        omega
  unfold Stream.matchAt at h3
  split at h3
  · rename_i hw
    simp only [Option.some.injEq, Prod.mk.injEq] at h3
    have hlt := List.idxOf_lt_length_of_mem (List.contains_iff_mem.1 (Bool.and_eq_true_iff.1 hw).1)
    omega
  · have := hf h3
    omega

theorem piContent_ref {ms : MStream} {d : MDoc} (hl : Live c.src c.ask [] c.enc w ms d) (h2 : d.st = st)
    (h3 : d.alone = c.alone) (h4 : d.header = c.header) (h5 : ms.factory = false) {id : Nat} {t : List Char} {fac : Bool}
    (hid : w.heap id = some ⟨t ++ [NUL], fac⟩) :
    Ref c false (ItemsOk c st)
      (match Stream.getUntil [c!" ?>", c!"?>"] (c.src.drop ms.index) with
        | none => .error
        | some g => .ok (st.addPI ⟨toStr t, some (toStr g.text)⟩, g.after))
      (piContent (top st) id w) := by
  unfold piContent
  rw [bind_ret (strdup_run hid)]
  have hT := hl.addTmp (toStr t ++ [NUL])
  have hg := getUntil_keep hT (chunks := [c!" ?>", c!"?>"]) (by decide) h5
  cases hs : Stream.getUntil [c!" ?>", c!"?>"] (c.src.drop ms.index) with
  | none =>
    rw [hs] at hg
    rw [bind_ret hg]
    dsimp only
    obtain ⟨e, hF⟩ := hT.dropTmp
    rw [bind_ret e]
    exact fail_live hF (by omega) (by decide) _ _
  | some g =>
    rw [hs] at hg
    obtain ⟨id2, w2, ms2, k1, k2, k3, k4, k5, k6, k7⟩ := hg
    rw [bind_ret k1]
    dsimp only
    have hn : w2.heap w.next = some ⟨toStr t ++ [NUL], false⟩ := by
      rw [k7 w.next (by simp)]
      simp
    rw [bind_ret (readStr_eq hn), bind_ret (readStr_eq k4), toStr_toStr]
    rw [← h2, bind_ret (addPI_run k2.doc _)]
    obtain ⟨e, hF⟩ := (k2.setDoc (d' := { d with st := d.st.addPI ⟨toStr t, some (toStr g.text)⟩ }) rfl).dropTmp
    rw [bind_ret e]
    refine ⟨rfl, ⟨ms2, _, hF, k5, rfl, h3, h4, k6, .inr ?_⟩, top_addPI _ _⟩
    exact after_pi hs (fun k hk => by have := found_lt hs; simp only [List.length_cons, List.length_nil] at this; omega)

theorem consumePi_ref (h : At c false st rest w) :
    Ref c false (ItemsOk c st) (Parse.consumePi st rest) (consumePi (top st) w) := by
  unfold consumePi Parse.consumePi
  obtain ⟨r, w1, e1, h1, _, hm⟩ := peek_at h (chunk := c!"<?") (by decide)
  rw [bind_ret e1, ite_run]
  cases hs : Stream.eat rest c!"<?" with
  | none =>
    rw [hs] at hm
    rw [if_neg hm]
    exact ⟨rfl, h1, rfl⟩
  | some rest1 =>
    rw [hs] at hm
    obtain ⟨hr, w2, e2, h2⟩ := hm
    rw [if_pos hr, bind_ret e2]
    dsimp only
    obtain ⟨ms, d, hl, q1, q2, q3, q4, q5, _⟩ := h2
    have hg := getUntil_keep hl (chunks := [c!" ?>", c!"?>", c!" "]) (by decide) q5
    rw [q1] at hg
    cases hs2 : Stream.getUntil [c!" ?>", c!"?>", c!" "] rest1 with
    | none =>
      rw [hs2] at hg
      rw [bind_ret hg]
      exact fail_live hl (by omega) (by decide) _ _
    | some f =>
      rw [hs2] at hg
      obtain ⟨id, w3, ms3, k1, k2, k3, k4, k5, k6, k7⟩ := hg
      rw [bind_ret k1]
      dsimp only
      rw [lower_run k2 k4, ite_run]
      have hB := k2.bump (w3.next + 1) (by omega)
      by_cases hx : cmp (some (toLowerStr (toStr f.text))) (some c!"xml") = true
      · rw [if_pos hx, if_pos hx]
        exact fail_live hB (by omega) (by decide) _ _
      · rw [if_neg hx, if_neg hx, ite_run]
        by_cases hk : f.chunk = 0 ∨ f.chunk = 1
        · rw [if_pos hk, if_pos hk, bind_ret (readStr_eq (t := f.text) (fac := false) (by exact k4))]
          rw [← q2, bind_ret (addPI_run (by exact k2.doc) _)]
          refine ⟨rfl, ⟨ms3, _, hB.setDoc rfl, k5, rfl, q3, q4, k6, .inr ?_⟩, top_addPI _ _⟩
          exact after_pi (i := ms.index) (by rw [q1]; exact hs2) (fun k hk => by omega)
        · rw [if_neg hk, if_neg hk]
          have := piContent_ref (c := c) (st := st) hB q2 q3 q4 k6 (id := id) (t := f.text) (fac := false) (by exact k4)
          rw [k5] at this
          exact this

theorem comment_ref (h : At c false st rest w) :
    Ref c none (fun b a w => a = some b.1 ∧ At c false b.2.1 b.2.2 w ∧ top b.2.1 = top st) (Parse.comment st rest) (comment (top st) w) := by
  unfold comment Parse.comment
  obtain ⟨w1, e1, h1, _⟩ := skip_at h
  rw [bind_ret e1]
  obtain ⟨r, w2, e2, _, hm⟩ := eat_at h1 (chunk := c!"<!--") (by decide)
  rw [bind_ret e2, ite_run]
  cases hs : Stream.eat (Stream.skip rest) c!"<!--" with
  | none =>
    rw [hs] at hm
    rw [if_neg hm.1]
    exact ⟨rfl, hm.2, rfl⟩
  | some rest1 =>
    rw [hs] at hm
    rw [if_pos hm.1]
    dsimp only
    have hg := ref_at hm.2.1 (chunks := [c!"-->"]) (by decide)
    cases hs2 : Stream.getUntilRef [c!"-->"] rest1 with
    | mk text rest2 =>
      rw [hs2] at hg
      cases text with
      | none =>
        obtain ⟨w3, e3, h3⟩ := hg
        rw [bind_ret e3]
        exact fail_ref h3 (by omega) (by decide) _ _
      | some text =>
        obtain ⟨start, w3, ms, d, tail, e3, hl, q1, q2, q3, q4, q5, q0, q6, q7, q8⟩ := hg
        rw [bind_ret e3]
        dsimp only
        rw [bind_ret (getS_eq hl.stream)]
        have hcopy : copyBytes ms.mem start text.length = some text := by
          have := hl.len
          have := hl.idx
          unfold copyBytes
          rw [if_pos (by omega), q7, List.take_left]
        rw [hcopy, bind_some_run]
        obtain ⟨w4, e4, h4, _⟩ := modTree_at ⟨ms, d, hl, q1, q2, q3, q4, q5, .inl q0⟩ fun s => addTo s (top st) (.comment text)
        rw [bind_ret e4]
        rw [addTo_top] at h4
        exact ⟨rfl, h4, top_addLeaf _ _⟩

theorem instruction_ref (h : At c false st rest w) :
    Ref c none (fun b a w => a = some b.1 ∧ At c false b.2.1 b.2.2 w ∧ top b.2.1 = top st) (Parse.instruction c.header st rest)
      (instruction w) := by
  unfold instruction Parse.instruction
  obtain ⟨w1, e1, h1, _⟩ := skip_at h
  rw [bind_ret e1]
  obtain ⟨d, e2, q1, q2⟩ := getD_at h1
  rw [bind_ret e2, q2, ite_run]
  cases hh : c.header with
  | false =>
    rw [if_neg (by simp)]
    simp only [Bool.false_and, Bool.false_eq_true, if_false]
    exact ⟨rfl, h1, rfl⟩
  | true =>
    rw [if_pos rfl]
    obtain ⟨r, w3, e3, h3, _, hm⟩ := peek_at h1 (chunk := c!"<?") (by decide)
    rw [bind_ret e3, ite_run]
    simp only [Bool.true_and, Stream.peek]
    cases hs : Stream.eat (Stream.skip rest) c!"<?" with
    | none =>
      rw [hs] at hm
      rw [if_neg hm]
      exact ⟨rfl, h3, rfl⟩
    | some rest1 =>
      rw [hs] at hm
      rw [if_pos hm.1]
      simp only [Option.isSome_some, if_true, q1]
      refine Ref.bind (consumePi_ref h3) (fun _ => rfl) ?_
      rintro ⟨st2, s2⟩ a w4 ⟨rfl, h4, h5⟩
      exact ⟨rfl, h4, h5⟩

theorem commentsLoop_ref : ∀ (fuel : Nat) {st : Parse.St} {rest : List Char} {w : World}, At c false st rest w →
    Ref c false (ItemsOk c st) (Parse.comments c.header fuel st rest) (commentsLoop (top st) fuel w)
  | 0, _, _, _, _ => trivial
  | fuel + 1, st, rest, w, h => by
    unfold commentsLoop Parse.comments
    refine Ref.bind (comment_ref h) (fun _ => rfl) ?_
    rintro ⟨f1, st1, s1⟩ a w1 ⟨rfl, h1, t1⟩
    dsimp only
    refine Ref.bind (instruction_ref h1) (fun _ => rfl) ?_
    rintro ⟨f2, st2, s2⟩ a w2 ⟨rfl, h2, t2⟩
    dsimp only
    rw [ite_run]
    by_cases hf : (f1 || f2) = true
    · rw [if_pos hf, if_pos hf]
      have ht : top st2 = top st := t2.trans t1
      have := commentsLoop_ref fuel h2
      rw [ht] at this
      exact this.imp fun b a w ⟨k1, k2, k3⟩ => ⟨k1, k2, k3.trans ht⟩
    · rw [if_neg hf, if_neg hf]
      obtain ⟨w3, e3, h3, _⟩ := skip_at h2
      rw [bind_ret e3]
      exact ⟨rfl, h3, t2.trans t1⟩

theorem comments_ref (h : At c false st rest w) :
    Ref c false (ItemsOk c st) (Parse.comments c.header (rest.length + 1) st rest) (comments w) := by
  unfold comments
  obtain ⟨d, e2, q1, q2⟩ := getD_at h
  obtain ⟨s, e3, q3, _⟩ := getS_at h
  rw [bind_ret e2, bind_ret e3, q1, q3]
  exact commentsLoop_ref _ h

theorem quote_at (h : At c fac st rest w) :
    match Parse.quote rest with
    | none => ∃ w', quote w = .ret none w' ∧ At c fac st rest w' ∧ Keeps w w'
    | some (q, rest') => ∃ w', quote w = .ret (some q) w' ∧ At c fac st rest' w' ∧ Keeps w w' ∧ q ≠ NUL ∧ Clean w' := by
  unfold quote Parse.quote
  obtain ⟨r, w1, e1, k1, hm⟩ := eat_at h (chunk := c!"\"") (by decide)
  rw [bind_ret e1, ite_run]
  cases hs : Stream.eat rest c!"\"" with
  | some rest1 =>
    rw [hs] at hm
    rw [if_pos hm.1]
    exact ⟨w1, rfl, hm.2.1, k1, by decide, hm.2.2⟩
  | none =>
    rw [hs] at hm
    rw [if_neg hm.1]
    dsimp only
    obtain ⟨r, w2, e2, k2, hm⟩ := eat_at hm.2 (chunk := c!"'") (by decide)
    rw [bind_ret e2, ite_run]
    cases hs2 : Stream.eat rest c!"'" with
    | some rest1 =>
      rw [hs2] at hm
      rw [if_pos hm.1]
      exact ⟨w2, rfl, hm.2.1, k1.trans k2, by decide, hm.2.2⟩
    | none =>
      rw [hs2] at hm
      rw [if_neg hm.1]
      exact ⟨w2, rfl, hm.2, k1.trans k2⟩

theorem space_ref (h : At c fac st rest w) (name : List Char) (v : Option (List Char)) :
    Ref c false (fun b a w => a = true ∧ At c fac b rest w ∧ b.opened = st.opened) (Parse.space st name v) (space name v w) := by
  unfold space Parse.space
  rw [ite_run]
  by_cases h1 : cmp (some name) (some c!"xml:space") = true
  · rw [if_pos h1, if_pos h1, ite_run]
    by_cases h2 : cmp v (some c!"preserve") = true
    · rw [if_pos h2, if_pos h2]
      obtain ⟨w1, e1, k1, _⟩ := modTree_at h fun st => { st with preserve := true :: st.preserve }
      rw [bind_ret e1]
      exact ⟨rfl, k1, rfl⟩
    · rw [if_neg h2, if_neg h2, ite_run]
      by_cases h3 : cmp v (some c!"default") = true
      · rw [if_pos h3, if_pos h3]
        obtain ⟨w1, e1, k1, _⟩ := modTree_at h fun st => { st with preserve := false :: st.preserve }
        rw [bind_ret e1]
        exact ⟨rfl, k1, rfl⟩
      · rw [if_neg h3, if_neg h3]
        exact fail_ref h (by omega) (by decide) _ _
  · rw [if_neg h1, if_neg h1]
    obtain ⟨w1, e1, k1, _⟩ := modTree_at h Parse.St.inherit
    rw [bind_ret e1]
    refine ⟨rfl, k1, ?_⟩
    unfold Parse.St.inherit
    split <;> rfl

theorem duplicated_dead {α : Type} (h : At c fac st rest w) (a : α) :
    ∃ w', (do errorDuplicated; streamFree; pure a : M α) w = .ret a w' ∧ Dead c.src c.ask w' := by
  obtain ⟨ms, d, h, _⟩ := h
  have hz := h.size
  have hix := h.idx
  have hlen := h.len
  have ho : Owns w.heap w.next (ms.lastChunk.toList ++ (d.encoding.toList ++ [])) := h.owns
  have en := getNear_spec (count := 100) (w := w) (ms := ms) h.stream (by omega) (by omega) h.near
  let ms2 : MStream := { ms with nearTo := some w.next }
  let near := (ms.mem.drop (nearFirst ms 100)).take (nearSize ms 100)
  let w2 : World := { w with heap := fun i => if i = w.next then some ⟨near ++ [NUL], false⟩ else w.heap i, next := w.next + 1, stream := some ms2 }
  let err : Err := ⟨-3, c!"Duplicate attribute error", none⟩
  let w3 : World := { w2 with errors := if c.ask then some [err] else none }
  have ho2 : Owns w2.heap w2.next (w.next :: (ms.lastChunk.toList ++ (d.encoding.toList ++ []))) := ho.alloc (near ++ [NUL])
  obtain ⟨w', e, h1, h2⟩ := streamFree_linked (w := w3) (ms := ms2) (d := d) (ids := []) rfl h.doc h.linked (by
    refine ho2.perm ?_
    simp only [ms2, h.foll, Option.toList_some, Option.toList_none, List.nil_append]
    refine (perm_front (a := [w.next])).trans ?_
    refine (List.Perm.append_left _ perm_front).trans ?_
    exact perm_front)
  have hE : errorDuplicated w = .ret () w3 := by
    unfold errorDuplicated
    rw [bind_ret en]
    cases hask : c.ask with
    | false =>
      have he : w.errors = none := by have := h.errors; rw [hask] at this; simpa using this
      refine (bind_ret (a := false) (w' := w2) ?_).trans ?_
      · simp only [asked, he, w2, near, ms2]
        rfl
      · rw [ite_run, if_neg (by simp)]
        simp only [w3, hask, w2, ← he]
        rfl
    | true =>
      have he : w.errors = some [] := by have := h.errors; rw [hask] at this; simpa using this
      refine (bind_ret (a := true) (w' := w2) ?_).trans ?_
      · simp only [asked, he, w2, near, ms2]
        rfl
      · rw [ite_run, if_pos rfl, bind_ret (readStr_eq (t := near) (fac := false) (by simp [w2]))]
        simp only [putError, w3, w2, he, hask, Option.map_some, List.nil_append, if_true, err]
  refine ⟨w', ?_, .inl h1.all, ?_⟩
  · rw [bind_ret hE, bind_ret e]
    rfl
  · unfold Spec.ParseMem.OneError
    rw [h2]
    cases hask : c.ask with
    | false =>
      rw [if_neg (by simp)]
      simp [w3, hask]
    | true =>
      rw [if_pos rfl]
      refine ⟨err, by simp [w3, hask], by decide, by decide, fun p hp => ?_⟩
      cases hp

theorem readNull_run {v : Option Nat} {t : Option (List Char)}
    (h : match v, t with
      | none, none => True
      | some id, some t => w.heap id = some ⟨t ++ [NUL], true⟩
      | _, _ => False) : readNull v w = .ret (t.map toStr) w := by
  cases v with
  | none =>
    cases t with
    | none => rfl
    | some t => exact h.elim
  | some id =>
    cases t with
    | none => exact h.elim
    | some t =>
      show (readStr id >>= fun s => pure (some s)) w = _
      rw [bind_ret (readStr_eq h)]
      rfl

theorem setDoc_at (h : At c fac st rest w) {d : MDoc} (hd : w.doc = some d) (st' : Parse.St) :
    At c fac st' rest { w with doc := some { d with st := st' } } := by
  obtain ⟨ms, d', hl, h1, h2, h3, h4, h5, h6⟩ := h
  have : d = d' := by
    have := hl.doc
    rw [hd] at this
    exact Option.some.inj this
  subst this
  exact ⟨ms, _, hl.setDoc rfl, h1, rfl, h3, h4, h5, h6⟩

theorem storeAttr_ref (h : At c true st rest w) {id : Nat} {name : List Char} {v : Option Nat} {t : Option (List Char)}
    (hn : w.heap id = some ⟨name ++ [NUL], true⟩)
    (hv : match v, t with
      | none, none => True
      | some id, some t => w.heap id = some ⟨t ++ [NUL], true⟩
      | _, _ => False) :
    Ref c false (fun b a w => a = true ∧ At c true b.1 b.2 w ∧ top b.1 = top st)
      (match st.opened with
        | [] => .ub
        | o :: os => do
          let has ← Res.ofOption (o.attrs.hasAttribute (toStr name))
          if has || o.noValue.contains (toStr name) then .error
          else do
            let o ← Parse.setAttr o (toStr name) (t.map toStr)
            let st ← Parse.space { st with opened := o :: os } (toStr name) (t.map toStr)
            .ok (st, Stream.skip rest))
      (storeAttr id v w) := by
  unfold storeAttr
  obtain ⟨d, e1, q1, q2⟩ := getD_at h
  rw [bind_ret e1, bind_ret (readStr_eq hn), bind_ret (readNull_run hv), q1]
  have hd : w.doc = some d := by
    unfold getD at e1
    split at e1
    · cases e1
      assumption
    · cases e1
  cases ho : st.opened with
  | nil => exact trivial
  | cons o os =>
    dsimp only
    cases hh : o.attrs.hasAttribute (toStr name) with
    | none => exact trivial
    | some has =>
      rw [bind_some_run, ite_run]
      show Ref _ _ _ (if (has || o.noValue.contains (toStr name)) = true then _ else _) _
      by_cases hb : (has || o.noValue.contains (toStr name)) = true
      · rw [if_pos hb, if_pos hb]
        obtain ⟨w', e, hdead⟩ := duplicated_dead h false
        rw [e]
        exact ⟨rfl, hdead⟩
      · rw [if_neg hb, if_neg hb]
        have hset : (∃ o', Parse.setAttr o (toStr name) (t.map toStr) = .ok o') ∨ Parse.setAttr o (toStr name) (t.map toStr) = .ub := by
          unfold Parse.setAttr
          cases t with
          | none => exact .inl ⟨_, rfl⟩
          | some t =>
            cases he : o.attrs.setAttributeFromFactory (toStr name) (toStr t) with
            | none => simp only [Option.map_some, he]; exact .inr rfl
            | some a => simp only [Option.map_some, he]; exact .inl ⟨_, rfl⟩
        rcases hset with ⟨o', hset⟩ | hset
        case inr =>
          rw [hset]
          exact trivial
        case inl =>
          rw [hset]
          show Ref _ _ _ (Parse.space { st with opened := o' :: os } (toStr name) (t.map toStr) >>= _) ((M.ofOption (some o') >>= _) w)
          rw [bind_some_run, bind_setD]
          have h1 := setDoc_at h hd { st with opened := o' :: os }
          refine Ref.bind (space_ref h1 (toStr name) (t.map toStr)) (fun _ => rfl) ?_
          rintro st2 a w2 ⟨rfl, k1, k2⟩
          simp only [if_true]
          obtain ⟨w3, e3, k3, _⟩ := skip_at k1
          rw [bind_ret e3]
          refine ⟨rfl, k3, ?_⟩
          simp [top, k2, ho]

/-- A text read for the document, that the stream forgets. -/
theorem give_null (h : At c true st rest w) {chunks : List (List Char)} (hc : ∀ x ∈ chunks, NUL ∉ x) (acc : Bool) :
    match Stream.getUntil chunks rest with
    | none => getUntil acc chunks w = .ret none w
    | some f => ∃ id w' w'', getUntil acc chunks w = .ret (some (id, f.chunk)) w' ∧ nullify w' = .ret () w'' ∧
        At c true st (if acc then f.after else f.at_) w'' ∧ w''.heap id = some ⟨f.text ++ [NUL], true⟩ ∧ Keeps w w'' := by
  have hg := give_at h hc acc
  cases hs : Stream.getUntil chunks rest with
  | none =>
    rw [hs] at hg
    exact hg
  | some f =>
    rw [hs] at hg
    obtain ⟨id, w', ms', k1, k2, k3, k4, k5, k6⟩ := hg
    refine ⟨id, w', _, k1, nullify_run k2, ?_, k5, k6⟩
    rw [show ({ ms' with lastChunk := none } : MStream) = { ms' with lastChunk := none, factory := true } by rw [← k3]]
    exact k4 true

theorem give_alloc (h : At c true st rest w) {chunks : List (List Char)} (hc : ∀ x ∈ chunks, NUL ∉ x) (acc : Bool) :
    match Stream.getUntil chunks rest with
    | none => getUntil acc chunks w = .ret none w
    | some f => ∃ id w' w1 w'', getUntil acc chunks w = .ret (some (id, f.chunk)) w' ∧ setAlloc false w' = .ret () w1 ∧
        nullify w1 = .ret () w'' ∧ At c false st (if acc then f.after else f.at_) w'' ∧ w''.heap id = some ⟨f.text ++ [NUL], true⟩ := by
  have hg := give_at h hc acc
  cases hs : Stream.getUntil chunks rest with
  | none =>
    rw [hs] at hg
    exact hg
  | some f =>
    rw [hs] at hg
    obtain ⟨id, w', ms', k1, k2, k3, k4, k5, k6⟩ := hg
    exact ⟨id, w', _, _, k1, setAlloc_run k2 false, nullify_run rfl, k4 false, k5⟩

theorem nullify_clean (h : At c fac st rest w) (hc : Clean w) : nullify w = .ret () w := by
  obtain ⟨ms, d, hl, _⟩ := h
  have hn := hc ms hl.stream
  rw [nullify_run hl.stream]
  congr 1
  rw [← hn]
  exact world_eta hl.stream

theorem attrib_ref (h : At c true st rest w) :
    Ref c false (fun b a w => a = true ∧ At c true b.1 b.2 w ∧ top b.1 = top st) (Parse.attrib st rest) (attrib w) := by
  unfold attrib Parse.attrib
  obtain ⟨w1, e1, h1, _⟩ := skip_at h
  rw [bind_ret e1]
  have hg := give_null h1 (chunks := [c!"="]) (by decide) true
  cases hs : Stream.getUntil [c!"="] (Stream.skip rest) with
  | none =>
    rw [hs] at hg
    rw [bind_ret hg]
    exact fail_ref h1 (by omega) (by decide) _ _
  | some f =>
    rw [hs] at hg
    obtain ⟨id, w2, w3, e2, e3, h3, hid, _⟩ := hg
    rw [bind_ret e2]
    dsimp only
    rw [bind_ret e3, bind_ret (readStr_eq hid), ite_run]
    by_cases hn : toStr f.text = []
    · rw [if_pos hn, if_pos hn]
      exact fail_ref h3 (by omega) (by decide) _ _
    · rw [if_neg hn, if_neg hn]
      have hq := quote_at h3
      simp only [if_true] at hq
      cases hs2 : Parse.quote f.after with
      | none =>
        rw [hs2] at hq
        obtain ⟨w4, e4, h4, _⟩ := hq
        rw [bind_ret e4]
        dsimp only
        obtain ⟨w5, e5, h5, _⟩ := setAlloc_at h4 false
        rw [bind_ret e5]
        exact fail_ref h5 (by omega) (by decide) _ _
      | some p =>
        obtain ⟨q, rest2⟩ := p
        rw [hs2] at hq
        obtain ⟨w4, e4, h4, k4, hqn, hclean⟩ := hq
        rw [bind_ret e4]
        dsimp only
        have hv := give_null h4 (chunks := [[q]]) (by simp; exact fun e => hqn e.symm) true
        unfold Parse.attrValue
        cases hs3 : Stream.getUntil [[q]] rest2 with
        | none =>
          rw [hs3] at hv
          rw [bind_ret hv, bind_ret (nullify_clean h4 hclean)]
          exact storeAttr_ref h4 (v := none) (t := none) (k4 _ _ hid rfl) trivial
        | some g =>
          rw [hs3] at hv
          obtain ⟨id2, w5, w6, e5, e6, h6, hid2, k6⟩ := hv
          rw [bind_ret e5, bind_ret e6]
          exact storeAttr_ref h6 (v := some id2) (t := some g.text) (k6 _ _ (k4 _ _ hid rfl) rfl) hid2

theorem emptyEnd_run (h : At c true st rest w) :
    ∃ w', emptyEnd w = .ret (some (top st.pop, true)) w' ∧ At c false st.pop rest w' := by
  unfold emptyEnd
  obtain ⟨w1, e1, h1, _⟩ := setAlloc_at h false
  obtain ⟨w2, e2, h2, _⟩ := modTree_at h1 Parse.St.pop
  obtain ⟨d, e3, q1, _⟩ := getD_at h2
  refine ⟨w2, ?_, h2⟩
  rw [bind_ret e1, bind_ret e2, bind_ret e3, q1]
  rfl

/-- What a function that reads a node does. -/
def NodeOk (c : Cfg) (b : Parse.St × List Char × Bool) (a : Option (Option Nat × Bool)) (w : World) : Prop :=
  a = some (top b.1, b.2.2) ∧ At c false b.1 b.2.1 w

theorem attrLoop_ref : ∀ (fuel : Nat) {st : Parse.St} {rest : List Char} {w : World}, At c true st rest w →
    Ref c none (NodeOk c) (Parse.attrLoop fuel st rest) (attrLoop 2 (top st) fuel w)
  | 0, _, _, _, _ => trivial
  | fuel + 1, st, rest, w, h => by
    unfold attrLoop Parse.attrLoop
    rw [if_neg (by omega)]
    obtain ⟨r, w1, e1, _, hm⟩ := eat_at h (chunk := c!"/>") (by decide)
    rw [bind_ret e1, ite_run]
    cases hs : Stream.eat rest c!"/>" with
    | some rest1 =>
      rw [hs] at hm
      rw [if_pos hm.1]
      obtain ⟨w2, e2, h2⟩ := emptyEnd_run hm.2.1
      rw [e2]
      exact ⟨rfl, h2⟩
    | none =>
      rw [hs] at hm
      rw [if_neg hm.1, if_neg (by omega)]
      dsimp only
      obtain ⟨r, w2, e2, _, hm⟩ := eat_at hm.2 (chunk := c!">") (by decide)
      rw [bind_ret e2, ite_run]
      cases hs2 : Stream.eat rest c!">" with
      | some rest1 =>
        rw [hs2] at hm
        rw [if_pos hm.1]
        obtain ⟨w3, e3, h3, _⟩ := setAlloc_at hm.2.1 false
        rw [bind_ret e3]
        exact ⟨rfl, h3⟩
      | none =>
        rw [hs2] at hm
        rw [if_neg hm.1]
        dsimp only
        refine Ref.bind (attrib_ref hm.2) (fun _ => rfl) ?_
        rintro ⟨st2, s2⟩ a w3 ⟨rfl, h3, t3⟩
        have := attrLoop_ref fuel h3
        rw [t3] at this
        exact this

theorem readStr_run {id : Nat} {data : List Char} {fac : Bool} (h : w.heap id = some ⟨data, fac⟩) (hn : NUL ∈ data) :
    readStr id w = .ret (toStr data) w := by
  unfold readStr
  rw [bind_ret (a := data) (w' := w) (by simp [readBlock, h])]
  simp [cstr, M.ofOption, hn, pure_eq]

theorem write_at (h : At c fac st rest w) {id : Nat} {data : List Char} (hid : w.heap id = some ⟨data, true⟩) (data' : List Char) :
    ∃ w', writeBlock id data' w = .ret () w' ∧ At c fac st rest w' ∧ w'.heap id = some ⟨data', true⟩ := by
  obtain ⟨ms, d, hl, h1, h2, h3, h4, h5, h6⟩ := h
  refine ⟨{ w with heap := fun i => if i = id then some ⟨data', true⟩ else w.heap i }, by simp [writeBlock, hid], ?_, by simp⟩
  refine ⟨ms, d, ⟨hl.stream, hl.doc, hl.size, hl.len, hl.idx, hl.mem, hl.bytes, hl.near, hl.foll, hl.linked, hl.owns.write hid data', ?_, hl.errors⟩,
    h1, h2, h3, h4, h5, h6⟩
  refine hl.enc.set (fun e => ?_) _
  obtain ⟨data2, hd⟩ := hl.owns.live id (by simp [e])
  rw [hid] at hd
  cases hd

theorem toStr_cut {t : List Char} (h : toStr t ≠ []) :
    toStr ((t ++ [NUL]).set ((toStr t).length - 1) NUL) = (toStr t).dropLast := by
  have hs : ∃ r, t ++ [NUL] = toStr t ++ NUL :: r := by
    induction t with
    | nil => exact ⟨[], rfl⟩
    | cons a t ih =>
      by_cases ha : a = NUL
      · subst ha
        exact ⟨t ++ [NUL], by simp [toStr]⟩
      · have e : toStr (a :: t) = a :: toStr t := by simp [toStr, ha]
        rw [e]
        by_cases ht : toStr t = []
        · cases t with
          | nil => exact ⟨[], by simp [toStr]⟩
          | cons b t =>
            have : b = NUL := by
              refine Classical.byContradiction fun hb => ?_
              simp [toStr, hb] at ht
            subst this
            exact ⟨t ++ [NUL], by simp [toStr]⟩
        · obtain ⟨r, hr⟩ := ih ht
          exact ⟨r, by simp [hr]⟩
  obtain ⟨r, hr⟩ := hs
  have hl : toStr t = (toStr t).dropLast ++ [(toStr t).getLast h] := (List.dropLast_concat_getLast h).symm
  have hlen : (toStr t).length - 1 = (toStr t).dropLast.length := by simp
  rw [hr, hlen]
  conv => lhs; rw [hl]
  rw [List.append_assoc, List.dropLast_concat]
  rw [set_append_nul _ _ (by simp)]
  refine toStr_spec _ _ fun hm => Parse.nul_cstr t ?_
  exact List.dropLast_subset _ hm

theorem nameEnd_run (h : At c true st rest w) {id k : Nat} {t : List Char} (hid : w.heap id = some ⟨t ++ [NUL], true⟩)
    (hn : toStr t ≠ []) :
    ∃ w' data, nameEnd id k w = .ret (if k = 1 then 2 else if (toStr t).getLast? = some '/' then 1 else 0) w' ∧
      At c true st rest w' ∧ w'.heap id = some ⟨data, true⟩ ∧ NUL ∈ data ∧
      toStr data = if k = 1 then toStr t else if (toStr t).getLast? = some '/' then (toStr t).dropLast else toStr t := by
  unfold nameEnd
  by_cases hk : k = 1
  · simp only [hk, if_true]
    exact ⟨w, _, rfl, h, hid, by simp, toStr_snoc t⟩
  · simp only [hk, if_false]
    rw [bind_ret (readStr_eq hid)]
    by_cases hl : (toStr t).getLast? = some '/'
    · simp only [hl, if_true]
      unfold writeByte
      obtain ⟨w1, e1, h1, k1⟩ := write_at h hid ((t ++ [NUL]).set ((toStr t).length - 1) NUL)
      have hle : (toStr t).length ≤ t.length := by
        unfold toStr
        exact (List.takeWhile_prefix _).length_le
      refine ⟨w1, _, ?_, h1, k1, ?_, toStr_cut hn⟩
      · refine (bind_ret (a := ()) (w' := w1) ?_).trans rfl
        rw [bind_ret (m := readBlock id) (a := t ++ [NUL]) (w' := w) (by simp [readBlock, hid])]
        have := wr_eq (mem := t ++ [NUL]) (i := (toStr t).length - 1) (by simp; omega) NUL
        have hpos := List.length_pos_iff.2 hn
        rw [this, bind_some_run]
        exact e1
      · refine List.mem_set (by simp; omega) _
    · simp only [hl, if_false]
      exact ⟨w, _, rfl, h, hid, by simp, toStr_snoc t⟩

theorem openNode_ref (h : At c true st rest w) {id matched : Nat} {data : List Char} {fac : Bool}
    (hid : w.heap id = some ⟨data, fac⟩) (hn : NUL ∈ data) (hm : matched < 3) :
    Ref c none (NodeOk c)
      (if matched = 2 then Parse.attrLoop ((Stream.skip rest).length + 1) (st.push (toStr data)) (Stream.skip rest)
        else if matched = 1 then .ok ((st.push (toStr data)).pop, rest, true)
        else .ok (Parse.endOfName (st.push (toStr data)) rest))
      (openNode id matched w) := by
  unfold openNode
  rw [bind_ret (readStr_run hid hn)]
  obtain ⟨w1, e1, h1, _⟩ := modTree_at h fun st => st.push (toStr data)
  obtain ⟨d, e2, q1, _⟩ := getD_at h1
  rw [bind_ret e1, bind_ret e2]
  by_cases h2 : matched = 2
  · subst h2
    simp only [if_true]
    obtain ⟨w2, e3, h3, _⟩ := skip_at h1
    obtain ⟨s, e4, q4, _⟩ := getS_at h3
    rw [bind_ret e3, bind_ret e4, q4, q1]
    exact attrLoop_ref _ h3
  · simp only [h2, if_false]
    obtain ⟨s, e4, q4, _⟩ := getS_at h1
    rw [bind_ret e4, q1]
    unfold attrLoop
    by_cases h3 : matched = 1
    · simp only [h3, if_true]
      obtain ⟨w2, e5, h5⟩ := emptyEnd_run h1
      rw [e5]
      exact ⟨rfl, h5⟩
    · have h0 : matched = 0 := by omega
      simp only [h0, Nat.zero_ne_one, if_false, if_true]
      unfold Parse.endOfName
      obtain ⟨r, w2, e5, _, hm⟩ := eat_at h1 (chunk := c!"/>") (by decide)
      rw [bind_ret e5, ite_run]
      cases hs : Stream.eat rest c!"/>" with
      | some rest1 =>
        rw [hs] at hm
        rw [if_pos hm.1]
        obtain ⟨w3, e6, h6⟩ := emptyEnd_run hm.2.1
        rw [e6]
        exact ⟨rfl, h6⟩
      | none =>
        rw [hs] at hm
        rw [if_neg hm.1]
        obtain ⟨w3, e6, h6, _⟩ := setAlloc_at hm.2 false
        rw [bind_ret e6]
        exact ⟨rfl, h6⟩

/-- A text without the end of a tag. -/
theorem no_name {s : List Char} (h : Stream.getUntil [c!">", c!" "] s = none) : ∀ x ∈ s, x ≠ '>' ∧ ¬ Spec.Xml.White x := by
  induction s with
  | nil => intro x hx; cases hx
  | cons a s ih =>
    unfold Stream.getUntil at h
    split at h
    · cases h
    · rename_i hm
      have h2 := ih (by simpa using h)
      intro x hx
      rcases List.mem_cons.1 hx with rfl | hx
      · unfold Stream.matchAt at hm
        split at hm
        · cases hm
        · rename_i hw
          have hw2 : isWhite x = false := by
            cases hx : isWhite x with
            | false => rfl
            | true => exact absurd (by rw [hx]; decide) hw
          refine ⟨fun e => ?_, fun e => ?_⟩
          · subst e
            simp [Stream.firstChunk] at hm
          · rw [(Stream.white_iff x).2 e] at hw2
            cases hw2
      · exact h2 x hx

/-- A tag, with the text that the stream may keep from an instruction before it. -/
theorem parseTag_ref (h : At c false st rest w) (hk : Clean w ∨ (rest ≠ [] ∧ rest.head? ≠ some '<')) :
    Ref c none (NodeOk c) (Parse.parseTag st rest) (parseTag w) := by
  unfold parseTag Parse.parseTag
  obtain ⟨ms, d, hl, h1, h2, h3, h4, h5, h6⟩ := h
  have hL := hl.setStream (ms' := { ms with factory := true }) (.inl rfl) rfl hl.idx hl.mem rfl rfl rfl rfl
  rw [bind_ret (setAlloc_run hl.stream true)]
  have hA : At c true st rest { w with stream := some { ms with factory := true } } := ⟨_, d, hL, h1, h2, h3, h4, rfl, h6⟩
  have hg := give_null hA (chunks := [c!">", c!" "]) (by decide) true
  cases hs : Stream.getUntil [c!">", c!" "] rest with
  | none =>
    rw [hs] at hg
    rw [bind_ret hg, bind_ret (nullify_run rfl)]
    dsimp only
    rw [bind_ret (setAlloc_run rfl false)]
    have hN : Live c.src c.ask ms.lastChunk.toList c.enc { w with stream := some { ms with lastChunk := none, factory := false } } { ms with lastChunk := none, factory := false } d := by
      refine ⟨rfl, hl.doc, hl.size, hl.len, hl.idx, hl.mem, hl.bytes, hl.near, hl.foll, hl.linked, ?_, hl.enc, hl.errors⟩
      refine hl.owns.perm ?_
      simp only [Option.toList_none, List.nil_append, List.append_nil]
      exact List.perm_append_comm
    obtain ⟨w', e, k1, k2⟩ := fail_spec hN (code := -2) (text := c!"expected an non empty content for the node name not found.") (by omega) (by decide)
    rw [bind_ret e]
    refine ⟨rfl, ?_, k2⟩
    cases hc : ms.lastChunk with
    | none =>
      rw [hc] at k1
      exact .inl k1.all
    | some id =>
      rw [hc] at k1
      rcases hk with hk | hk
      · have := hk ms hl.stream
        rw [hc] at this
        cases this
      · rcases h6 with h6 | ⟨before, blank, e1, e2⟩
        · rw [hc] at h6
          cases h6
        · exact .inr ⟨⟨before, blank, rest, e1, e2, hk.1, hk.2, no_name hs⟩, k1.one⟩
  | some f =>
    rw [hs] at hg
    obtain ⟨id, w2, w3, e2, e3, k3, hid, _⟩ := hg
    rw [bind_ret e2, bind_ret e3]
    dsimp only
    rw [bind_ret (readStr_eq hid), ite_run]
    by_cases hn : toStr f.text = []
    · rw [if_pos hn, if_pos hn]
      obtain ⟨w4, e4, k4, _⟩ := setAlloc_at k3 false
      rw [bind_ret e4]
      exact fail_ref k4 (by omega) (by decide) _ _
    · rw [if_neg hn, if_neg hn]
      obtain ⟨w4, data, e4, k4, q4, q5, q6⟩ := nameEnd_run k3 (k := f.chunk) hid hn
      rw [bind_ret e4]
      have := openNode_ref (c := c) k4 (matched := if f.chunk = 1 then 2 else if (toStr f.text).getLast? = some '/' then 1 else 0) q4 q5
        (by split; · omega
            · split <;> omega)
      rw [q6] at this
      by_cases hk1 : f.chunk = 1
      · simpa [hk1] using this
      · simp only [hk1, if_false] at this ⊢
        by_cases hl2 : (toStr f.text).getLast? = some '/'
        · simpa [hl2] using this
        · simpa [hl2] using this

theorem parseNode_ref (h : At c false st rest w) (hh : c.header = true) :
    Ref c none (NodeOk c) (Parse.parseNode st rest) (parseNode w) := by
  unfold parseNode Parse.parseNode
  have hc := comments_ref h
  rw [hh] at hc
  refine Ref.bind hc (fun _ => rfl) ?_
  rintro ⟨st1, s1⟩ a w1 ⟨rfl, h1, _⟩
  simp only [if_true]
  simp only at h1
  obtain ⟨r, w2, e2, _, hm⟩ := eat_at h1 (chunk := c!"<") (by decide)
  rw [bind_ret e2]
  unfold Parse.openAngle
  cases hs : Stream.eat s1 c!"<" with
  | some s2 =>
    rw [hs] at hm
    have hcond : (!decide (r > 0) && !decide (s2 ≠ [])) = false := by simp [hm.1]
    rw [bind_ret (remains_at hm.2.1), ite_run, hcond]
    exact parseTag_ref hm.2.1 (.inl hm.2.2)
  | none =>
    rw [hs] at hm
    rw [bind_ret (remains_at hm.2), ite_run]
    by_cases hn : s1 = []
    · subst hn
      have hcond : (!decide (r > 0) && !decide (([] : List Char) ≠ [])) = true := by simp [hm.1]
      rw [hcond]
      simp only [if_true]
      obtain ⟨d, e3, _⟩ := getD_at hm.2
      rw [bind_ret e3]
      by_cases ho : d.st.opened = []
      · simp only [ho, if_true]
        exact fail_ref hm.2 (by omega) (by decide) _ _
      · simp only [ho, if_false]
        exact fail_ref hm.2 (by omega) (by decide) _ _
    · have hcond : (!decide (r > 0) && !decide (s1 ≠ [])) = false := by simp [hn]
      rw [hcond]
      simp only [hn, if_false]
      refine parseTag_ref hm.2 (.inr ⟨hn, fun e => ?_⟩)
      rw [Stream.eat_none] at hs
      refine hs ?_
      cases s1 with
      | nil => cases e
      | cons a s =>
        simp only [List.head?_cons, Option.some.injEq] at e
        subst e
        exact ⟨s, rfl⟩

/-- The stream is in the same memory, not before. -/
def Same (w w' : World) : Prop :=
  ∀ ms, w.stream = some ms → ∃ ms', w'.stream = some ms' ∧ ms'.mem = ms.mem ∧ ms.index ≤ ms'.index

theorem Same.rfl {w : World} : Same w w := fun ms h => ⟨ms, h, by rfl, Nat.le_refl _⟩

theorem Same.trans {a b c : World} (h : Same a b) (k : Same b c) : Same a c := by
  intro ms hs
  obtain ⟨m1, e1, e2, e3⟩ := h ms hs
  obtain ⟨m2, f1, f2, f3⟩ := k m1 e1
  exact ⟨m2, f1, f2.trans e2, Nat.le_trans e3 f3⟩

theorem skip_same (h : At c fac st rest w) {w' : World} (e : skip w = .ret () w') : Same w w' := by
  obtain ⟨ms, d, hl, _⟩ := h
  obtain ⟨ms', e', _, _, k1, k2, _⟩ := skip_live hl
  rw [e] at e'
  cases e'
  intro m hm
  rw [hl.stream] at hm
  cases hm
  exact ⟨ms', rfl, k2, k1⟩

theorem peek_same (h : At c fac st rest w) {chunk : List Char} (hc : NUL ∉ chunk) {r : Int} {w' : World}
    (e : peek chunk w = .ret r w') : Same w w' := by
  obtain ⟨ms, d, hl, _⟩ := h
  obtain ⟨r', p, e', _⟩ := peek_live hl hc
  rw [e] at e'
  cases e'
  intro m hm
  rw [hl.stream] at hm
  cases hm
  exact ⟨_, rfl, rfl, Nat.le_refl _⟩

theorem move_at (h : At c fac st rest w) {i : Nat} (hi : i ≤ c.src.length)
    (hm : ∀ ms, w.stream = some ms → ms.mem.drop i = c.src.drop i ++ [NUL]) :
    ∃ w', move i w = .ret () w' ∧ At c fac st (c.src.drop i) w' := by
  obtain ⟨ms, d, hl, h1, h2, h3, h4, h5, h6⟩ := h
  have hL := hl.setStream (ms' := { ms with index := i, global := ms.global + ms.prev, prev := 0 }) (.inl rfl) rfl hi (hm ms hl.stream) rfl rfl rfl rfl
  obtain ⟨w1, e1, k1, _⟩ := freeLast_spec hL
  unfold move accept
  cases hc : ms.lastChunk with
  | none =>
    refine ⟨{ w with stream := some { ms with index := i, global := ms.global + ms.prev, prev := 0 } }, ?_, _, d, hL, rfl, h2, h3, h4, h5, .inl hc⟩
    refine (bind_ret (a := ()) (w' := { w with stream := some { ms with index := ms.index + ms.prev, global := ms.global + ms.prev, prev := 0 } }) ?_).trans ?_
    · rw [bind_ret (getS_eq hl.stream), bind_setS]
      unfold freeLast
      rw [bind_ret (getS_eq rfl)]
      simp only [hc, freeOpt]
      rw [bind_pure_run, bind_ret (getS_eq rfl)]
      simp only [setS, hc]
    · rw [bind_ret (getS_eq rfl)]
      rfl
  | some id =>
    obtain ⟨data, hd⟩ := hl.owns.live id (by simp [hc])
    have e2 : w1 = { w with heap := fun j => if j = id then none else w.heap j, stream := some { ms with index := i, global := ms.global + ms.prev, prev := 0, lastChunk := none } } := by
      have : freeLast { w with stream := some { ms with index := i, global := ms.global + ms.prev, prev := 0 } } = .ret () { w with heap := fun j => if j = id then none else w.heap j, stream := some { ms with index := i, global := ms.global + ms.prev, prev := 0, lastChunk := none } } := by
        unfold freeLast
        rw [bind_ret (getS_eq rfl)]
        simp only [hc, freeOpt]
        rw [bind_ret (m := free id) (a := ()) (w' := { w with heap := fun j => if j = id then none else w.heap j, stream := some { ms with index := i, global := ms.global + ms.prev, prev := 0 } }) (by simp [free, hd, hc])]
        rw [bind_ret (getS_eq rfl)]
        rfl
      rw [e1] at this
      cases this
      rfl
    refine ⟨w1, ?_, _, d, k1, rfl, h2, h3, h4, h5, .inl rfl⟩
    refine (bind_ret (a := ()) (w' := { w with heap := fun j => if j = id then none else w.heap j, stream := some { ms with index := ms.index + ms.prev, global := ms.global + ms.prev, prev := 0, lastChunk := none } }) ?_).trans ?_
    · rw [bind_ret (getS_eq hl.stream), bind_setS]
      unfold freeLast
      rw [bind_ret (getS_eq rfl)]
      simp only [hc, freeOpt]
      rw [bind_ret (m := free id) (a := ()) (w' := { w with heap := fun j => if j = id then none else w.heap j, stream := some { ms with index := ms.index + ms.prev, global := ms.global + ms.prev, prev := 0 } }) (by simp [free, hd, hc])]
      rw [bind_ret (getS_eq rfl)]
      rfl
    · rw [bind_ret (getS_eq rfl), e2]
      rfl

theorem closeMatch_ref {ms : MStream} {d : MDoc} (hl : Live c.src c.ask [] c.enc w ms d) {start : Nat} {name tail : List Char}
    (hn : NUL ∉ name) (hm : ms.mem.drop start = name ++ NUL :: tail) :
    match d.st.opened with
    | [] => Ref c false (fun (_ : Unit) a w' => a = true ∧ w' = w) .error (closeMatch start w)
    | o :: _ => Ref c false (fun (_ : Unit) a w' => a = true ∧ w' = w)
        (if cmp (some o.name) (some name) then .ok () else .error) (closeMatch start w) := by
  unfold closeMatch
  rw [bind_ret (getD_eq hl.doc)]
  cases ho : d.st.opened with
  | nil => exact fail_live hl (by omega) (by decide) _ _
  | cons o os =>
    dsimp only
    rw [bind_ret (getS_eq hl.stream)]
    have : readAt ms start w = .ret name w := by
      unfold readAt
      rw [hm, cstr, if_pos (by simp), toStr_spec name tail hn]
      rfl
    rw [bind_ret this, ite_run]
    by_cases hc : cmp (some o.name) (some name) = true
    · rw [if_pos hc, if_pos hc]
      exact ⟨rfl, rfl⟩
    · rw [if_neg hc, if_neg hc]
      exact fail_live hl (by omega) (by decide) _ _

/-- The end of a pass. -/
def PassOk (c : Cfg) (b : Parse.St × List Char × Bool) (a : Step) (w : World) : Prop :=
  a = (if b.2.2 then .next (top b.1) else .done (top b.1)) ∧ At c false b.1 b.2.1 w

theorem closeNode_ref (h : At c false st rest w) :
    Ref c false (fun b a w => a = true ∧ b.1 = { st.pop with preserve := st.preserve.tail } ∧ At c false st b.2 w)
      (Parse.closeNode st rest) (closeNode w) := by
  unfold closeNode Parse.closeNode
  have hg := ref_at h (chunks := [c!">"]) (by decide)
  cases hs : Stream.getUntilRef [c!">"] rest with
  | mk text rest2 =>
    rw [hs] at hg
    cases text with
    | none =>
      obtain ⟨w3, e3, h3⟩ := hg
      rw [bind_ret e3]
      exact fail_ref h3 (by omega) (by decide) _ _
    | some text =>
      obtain ⟨start, w3, ms, d, tail, e3, hl, q1, q2, q3, q4, q5, q0, q6, q7, q8⟩ := hg
      rw [bind_ret e3]
      dsimp only
      rw [bind_ret (getS_eq hl.stream)]
      have hpos := List.length_pos_iff.2 q6
      have hlen := hl.len
      have hidx := hl.idx
      have hcast : (start : Int) + text.length - 1 = ((start + text.length - 1 : Nat) : Int) := by omega
      have hlast : rd ms.mem ((start : Int) + text.length - 1) = some (text.getLast q6) := by
        rw [hcast]
        unfold rd
        rw [if_neg (by omega), Int.toNat_natCast]
        have e1 : (ms.mem.drop start)[text.length - 1]? = some (text.getLast q6) := by
          rw [q7, List.getElem?_append_left (by omega), List.getElem?_eq_getElem (by omega), List.getLast_eq_getElem]
        rw [List.getElem?_drop] at e1
        rw [← e1]
        congr 1
        omega
      rw [hlast, bind_some_run, ite_run]
      have hgl : text.getLast? = some (text.getLast q6) := List.getLast?_eq_some_getLast q6
      have key : ∀ (w4 : World) (ms4 : MStream) (name tail4 : List Char), Live c.src c.ask [] c.enc w4 ms4 d → ms4.index = ms.index →
          ms4.factory = false → ms4.lastChunk = none → NUL ∉ name → ms4.mem.drop start = name ++ NUL :: tail4 → Parse.closeName text = name →
          Ref c false (fun b a w => a = true ∧ b.1 = { st.pop with preserve := st.preserve.tail } ∧ At c false st b.2 w)
            (match st.opened with
              | [] => Res.error
              | o :: _ => if cmp (some o.name) (some (Parse.closeName text)) then .ok ({ st.pop with preserve := st.preserve.tail }, rest2) else .error)
            (closeMatch start w4) := by
        intro w4 ms4 name tail4 hl4 i4 f4 l4 hn4 hm4 hname
        have hc := closeMatch_ref hl4 hn4 hm4
        rw [q2] at hc
        rw [hname]
        cases ho : st.opened with
        | nil =>
          rw [ho] at hc
          cases hm : closeMatch start w4 <;> rw [hm] at hc <;> exact hc
        | cons o os =>
          rw [ho] at hc
          dsimp only at hc ⊢
          by_cases hcm : cmp (some o.name) (some name) = true
          · rw [if_pos hcm] at hc ⊢
            cases hm : closeMatch start w4 with
            | ret a w5 =>
              rw [hm] at hc
              obtain ⟨rfl, rfl⟩ := hc
              exact ⟨rfl, rfl, ms4, d, hl4, by rw [i4, q1], q2, q3, q4, f4, .inl l4⟩
            | _ => rw [hm] at hc; exact hc.elim
          · rw [if_neg hcm] at hc ⊢
            cases hm : closeMatch start w4 <;> rw [hm] at hc <;> exact hc
      have hcut : ∀ (t u : List Char), ∃ v, t ++ NUL :: u = toStr t ++ NUL :: v := by
        intro t
        induction t with
        | nil => exact fun u => ⟨u, rfl⟩
        | cons a t ih =>
          intro u
          by_cases ha : a = NUL
          · subst ha
            exact ⟨t ++ NUL :: u, by simp [toStr]⟩
          · obtain ⟨v, hv⟩ := ih u
            have e : toStr (a :: t) = a :: toStr t := by simp [toStr, ha]
            exact ⟨v, by rw [e, List.cons_append, hv, List.cons_append]⟩
      by_cases hw : isWhite (text.getLast q6) = true
      · rw [if_pos hw, hcast, wr_eq (by omega), bind_some_run, bind_setS]
        have hL := hl.setStream (ms' := { ms with mem := ms.mem.set (start + text.length - 1) NUL }) (.inr ⟨_, rfl⟩) rfl hidx (by
          simp only
          rw [List.drop_set_of_lt (by omega)]
          exact hl.mem) rfl rfl rfl rfl
        obtain ⟨v, hv⟩ := hcut text.dropLast ((text.getLast q6 :: NUL :: tail).drop 1)
        refine key _ _ (toStr text.dropLast) v hL rfl q5 q0 (Parse.nul_cstr _) ?_ ?_
        · simp only
          rw [List.drop_set, if_neg (by omega), q7, ← hv]
          have e1 : text ++ NUL :: tail = text.dropLast ++ (text.getLast q6 :: NUL :: tail) := by
            conv => lhs; rw [← List.dropLast_concat_getLast q6]
            simp
          rw [e1, show start + text.length - 1 - start = text.dropLast.length by simp; omega]
          exact set_append_nul _ _ (by simp)
        · simp [Parse.closeName, hgl, hw]
      · rw [if_neg hw]
        obtain ⟨v, hv⟩ := hcut text tail
        refine key _ ms (toStr text) v hl rfl q5 q0 (Parse.nul_cstr _) (by rw [q7, hv]) ?_
        simp [Parse.closeName, hgl, hw]

theorem passClose_ref (h : At c false st rest w) {w1 : World} (e : accept w = .ret () w1) {rest1 : List Char} (h1 : At c false st rest1 w1) :
    Ref c .null (PassOk c) (do
      let (st, r) ← Parse.closeNode st rest1
      .ok (st, r, !st.opened.isEmpty)) (passClose w) := by
  unfold passClose
  rw [bind_ret e]
  refine Ref.bind (closeNode_ref h1) (fun _ => rfl) ?_
  rintro ⟨st2, s2⟩ a w2 ⟨rfl, h2, h3⟩
  simp only at h2 h3
  subst h2
  simp only [if_true]
  obtain ⟨w3, e3, h4, _⟩ := modTree_at h3 fun st => { st.pop with preserve := st.preserve.tail }
  obtain ⟨d, e4, q1, _⟩ := getD_at h4
  rw [bind_ret e3, bind_ret e4, q1, ite_run]
  dsimp only
  by_cases ho : st.pop.opened = []
  · rw [if_pos ho]
    refine ⟨?_, h4⟩
    show _ = if (!st.pop.opened.isEmpty) = true then _ else _
    rw [if_neg (by simp [ho])]
  · rw [if_neg ho]
    refine ⟨?_, h4⟩
    show _ = if (!st.pop.opened.isEmpty) = true then _ else _
    rw [if_pos (by simp [ho])]

theorem passCdata_ref (h : At c false st rest w) {w1 : World} (e : accept w = .ret () w1) {rest1 : List Char} (h1 : At c false st rest1 w1) :
    Ref c .null (PassOk c) (do
      let (st, r) ← Parse.cdata st rest1
      .ok (st, r, true)) (passCdata (top st) w) := by
  unfold passCdata Parse.cdata
  obtain ⟨w2, e2, h2, _⟩ := setAlloc_at h1 true
  rw [bind_ret e, bind_ret e2]
  have hg := give_alloc h2 (chunks := [c!"]]>"]) (by decide) true
  cases hs : Stream.getUntil [c!"]]>"] rest1 with
  | none =>
    rw [hs] at hg
    obtain ⟨w3, e3, h3, _⟩ := setAlloc_at h2 false
    rw [bind_ret hg, bind_ret e3]
    exact fail_ref h3 (by omega) (by decide) _ _
  | some f =>
    rw [hs] at hg
    obtain ⟨id, w3, w4, w5, e3, e4, e5, h5, hid⟩ := hg
    rw [bind_ret e3, bind_ret e4]
    dsimp only
    rw [bind_ret e5, bind_ret (readStr_eq hid)]
    obtain ⟨w6, e6, h6, _⟩ := modTree_at h5 fun s => addTo s (top st) (.cdata (toStr f.text))
    rw [bind_ret e6]
    rw [addTo_top] at h6
    refine ⟨?_, h6⟩
    simp only [if_true]
    rw [top_addLeaf]

theorem passOpen_ref (h : At c false st rest w) (hh : c.header = true) {w1 : World} (e : accept w = .ret () w1) {rest1 : List Char}
    (h1 : At c false st rest1 w1) :
    Ref c .null (PassOk c) (do
      let (st, r, _) ← Parse.parseNode st rest1
      .ok (st, r, true)) (passOpen w) := by
  unfold passOpen
  rw [bind_ret e]
  refine Ref.bind (parseNode_ref h1 hh) (fun _ => rfl) ?_
  rintro ⟨st2, s2, b⟩ a w2 ⟨rfl, h2⟩
  exact ⟨rfl, h2⟩

theorem passContent_ref {rest1 : List Char} (h : At c false st rest1 w) {index : Nat} (hi : index ≤ c.src.length)
    (hr : c.src.drop index = rest)
    (hm : ∀ ms, w.stream = some ms → index ≤ ms.index ∧ ms.mem.drop index = c.src.drop index ++ [NUL]) :
    Ref c .null (PassOk c) (do
      let (st, r) ← Parse.content st rest
      .ok (st, r, true)) (passContent (top st) index w) := by
  unfold passContent Parse.content
  have hmv : ∃ w1, (do
      let s ← getS
      if s.index > index then move index else pure () : M Unit) w = .ret () w1 ∧ At c false st rest w1 := by
    obtain ⟨w1, e1, h1⟩ := move_at h hi fun ms hs => (hm ms hs).2
    rw [hr] at h1
    obtain ⟨ms, d, hl, k1, k2, k3, k4, k5, k6⟩ := h
    rw [bind_ret (getS_eq hl.stream), ite_run]
    by_cases hgt : ms.index > index
    · rw [if_pos hgt]
      exact ⟨w1, e1, h1⟩
    · rw [if_neg hgt]
      have := (hm ms hl.stream).1
      have : ms.index = index := by omega
      rw [← hr, ← this]
      rw [← k1] at k6
      exact ⟨w, rfl, ms, d, hl, rfl, k2, k3, k4, k5, k6⟩
  obtain ⟨w1, e1, h1⟩ := hmv
  obtain ⟨ms, hms⟩ : ∃ ms, getS w = .ret ms w := by
    obtain ⟨s, e, _⟩ := getS_at h
    exact ⟨s, e⟩
  rw [bind_ret hms] at e1 ⊢
  have e1' : ∀ {β : Type} (k : Unit → M β), ((if ms.index > index then move index else pure () : M Unit) >>= k) w = k () w1 :=
    fun k => bind_ret e1
  have hcont : ∀ {β : Type} (k : M β), (if ms.index > index then (move index >>= fun _ => k) else k) w = k w1 := by
    intro β k
    have := e1' fun _ => k
    by_cases hgt : ms.index > index
    · rw [if_pos hgt] at this ⊢
      exact this
    · rw [if_neg hgt] at this ⊢
      rw [bind_pure_run] at this
      exact this
  refine (congrArg (Ref c _ _ _) (hcont _)).mpr ?_
  obtain ⟨w2, e2, h2, _⟩ := setAlloc_at h1 true
  rw [bind_ret e2]
  have hg := give_alloc h2 (chunks := [c!"<"]) (by decide) false
  cases hs : Stream.getUntil [c!"<"] rest with
  | none =>
    rw [hs] at hg
    obtain ⟨w3, e3, h3, _⟩ := setAlloc_at h2 false
    rw [bind_ret hg, bind_ret e3]
    exact fail_ref h3 (by omega) (by decide) _ _
  | some f =>
    rw [hs] at hg
    obtain ⟨id, w3, w4, w5, e3, e4, e5, h5, hid⟩ := hg
    rw [bind_ret e3, bind_ret e4]
    dsimp only
    rw [bind_ret e5, bind_ret (readStr_eq hid)]
    obtain ⟨w6, e6, h6, _⟩ := modTree_at h5 fun s => addTo s (top st) (.content (toStr f.text))
    rw [bind_ret e6]
    rw [addTo_top] at h6
    refine ⟨?_, h6⟩
    simp only [if_true]
    rw [top_addLeaf]

theorem peekComments_at (h : At c fac st rest w) :
    ∃ w', peekComments w = .ret (Stream.peek rest c!"<?" || Stream.peek rest c!"<!--") w' ∧ At c fac st rest w' ∧ Same w w' := by
  unfold peekComments
  obtain ⟨r, w1, e1, h1, _, k1⟩ := peek_at h (chunk := c!"<?") (by decide)
  have s1 := peek_same h (by decide) e1
  rw [bind_ret e1, ite_run]
  unfold Stream.peek
  cases hs : Stream.eat rest c!"<?" with
  | some rest' =>
    rw [hs] at k1
    rw [if_pos k1.1]
    exact ⟨w1, rfl, h1, s1⟩
  | none =>
    rw [hs] at k1
    rw [if_neg k1]
    obtain ⟨r2, w2, e2, h2, _, k2⟩ := peek_at h1 (chunk := c!"<!--") (by decide)
    have s2 := peek_same h1 (by decide) e2
    rw [bind_ret e2]
    refine ⟨w2, ?_, h2, s1.trans s2⟩
    cases hs2 : Stream.eat rest c!"<!--" with
    | some rest' =>
      rw [hs2] at k2
      simp [pure_eq, k2.1]
    | none =>
      rw [hs2] at k2
      simp [pure_eq, k2]

theorem pass_ref (h : At c false st rest w) (hh : c.header = true) : Ref c .null (PassOk c) (Parse.pass st rest) (pass (top st) w) := by
  unfold pass Parse.pass
  have h0 := h
  obtain ⟨ms, d, hl, k1, k2, k3, k4, k5, k6⟩ := h
  rw [bind_ret (getS_eq hl.stream), bind_ret (getD_eq hl.doc), k2]
  have hsk : ∃ w1, At c false st (if st.preserves then rest else Stream.skip rest) w1 ∧ Same w w1 ∧
      ∀ {β : Type} (k : M β), (if st.preserves = true then k else (skip >>= fun _ => k)) w = k w1 := by
    by_cases hp : st.preserves = true
    · exact ⟨w, by rw [if_pos hp]; exact h0, .rfl, fun k => by rw [if_pos hp]⟩
    · obtain ⟨w1, e1, h1, _⟩ := skip_at h0
      exact ⟨w1, by rw [if_neg hp]; exact h1, skip_same h0 e1, fun k => by rw [if_neg hp]; exact bind_ret e1⟩
  obtain ⟨w1, h1, s1, hk⟩ := hsk
  refine (congrArg (Ref c _ _ _) (hk _)).mpr ?_
  dsimp only
  generalize (if st.preserves then rest else Stream.skip rest) = rest1 at h1 ⊢
  obtain ⟨w2, e2, h2, s2⟩ := peekComments_at h1
  rw [bind_ret e2, ite_run]
  by_cases hc : (Stream.peek rest1 c!"<?" || Stream.peek rest1 c!"<!--") = true
  · rw [if_pos hc, if_pos hc]
    have hcm := comments_ref h2
    rw [hh] at hcm
    refine Ref.bind hcm (fun _ => rfl) ?_
    rintro ⟨st3, r3⟩ a w3 ⟨rfl, h3, t3⟩
    refine ⟨?_, h3⟩
    simp only [if_true]
    rw [← t3]
  · rw [if_neg hc, if_neg hc]
    obtain ⟨r, w3, e3, h3, _, k3'⟩ := peek_at h2 (chunk := c!"</") (by decide)
    have s3 := peek_same h2 (by decide) e3
    rw [bind_ret e3, ite_run]
    cases hs : Stream.eat rest1 c!"</" with
    | some r1 =>
      rw [hs] at k3'
      obtain ⟨hr, w4, e4, h4⟩ := k3'
      rw [if_pos hr]
      exact passClose_ref h3 e4 h4
    | none =>
      rw [hs] at k3'
      rw [if_neg k3']
      obtain ⟨r, w4, e4, h4, _, k4'⟩ := peek_at h3 (chunk := c!"<![CDATA[") (by decide)
      have s4 := peek_same h3 (by decide) e4
      rw [bind_ret e4, ite_run]
      dsimp only
      cases hs : Stream.eat rest1 c!"<![CDATA[" with
      | some r1 =>
        rw [hs] at k4'
        obtain ⟨hr, w5, e5, h5⟩ := k4'
        rw [if_pos hr]
        exact passCdata_ref h4 e5 h5
      | none =>
        rw [hs] at k4'
        rw [if_neg k4']
        obtain ⟨r, w5, e5, h5, _, k5'⟩ := peek_at h4 (chunk := c!"<") (by decide)
        have s5 := peek_same h4 (by decide) e5
        rw [bind_ret e5, ite_run]
        dsimp only
        cases hs : Stream.eat rest1 c!"<" with
        | some r1 =>
          rw [hs] at k5'
          obtain ⟨hr, w6, e6, h6⟩ := k5'
          rw [if_pos hr]
          exact passOpen_ref h5 hh e6 h6
        | none =>
          rw [hs] at k5'
          rw [if_neg k5']
          refine passContent_ref h5 hl.idx k1 fun ms5 hs5 => ?_
          obtain ⟨ms6, f1, f2, f3⟩ := ((((s1.trans s2).trans s3).trans s4).trans s5) ms hl.stream
          rw [hs5] at f1
          cases f1
          exact ⟨f3, by rw [f2]; exact hl.mem⟩

theorem mainLoop_ref (hh : c.header = true) : ∀ (fuel : Nat) {st : Parse.St} {rest : List Char} {w : World}, At c false st rest w →
    Ref c false (fun st' a w' => a = true ∧ ∃ rest', At c false st' rest' w') (Parse.mainLoop fuel st rest) (mainLoop fuel (top st) w)
  | 0, _, _, _, _ => trivial
  | fuel + 1, st, rest, w, h => by
    unfold mainLoop Parse.mainLoop
    rw [bind_ret (remains_at h), ite_run]
    cases rest with
    | nil =>
      rw [if_neg (by simp)]
      exact ⟨rfl, [], h⟩
    | cons x xs =>
      rw [if_pos (by simp)]
      dsimp only
      refine Ref.bind (pass_ref h hh) (fun _ => rfl) ?_
      rintro ⟨st2, s2, more⟩ a w2 ⟨rfl, h2⟩
      cases more with
      | true => exact mainLoop_ref hh fuel h2
      | false => exact ⟨rfl, s2, h2⟩

theorem two_at (h : At c fac st rest w) {a b : List Char} (ha : NUL ∉ a) (hb : NUL ∉ b) (hlen : a.length = b.length) :
    ∃ r w', inspectSeveral 0 0 [a, b] w = .ret r w' ∧
      match Stream.inspectTwo rest a b with
      | .short => r = -1 ∧ w' = w
      | .no => r = 0 ∧ w' = w
      | .yes rest' => r > 0 ∧ At c fac st rest' w' ∧ Clean w' := by
  unfold inspectSeveral Stream.inspectTwo
  obtain ⟨r1, w1, e1, _, k1⟩ := inspect_at h ha
  obtain ⟨r2, w2, e2, _, k2⟩ := inspect_at h hb
  rw [bind_ret e1]
  cases hs : Stream.inspect rest a with
  | short =>
    rw [hs] at k1
    obtain ⟨rfl, rfl⟩ := k1
    have hs2 : Stream.inspect rest b = .short := by
      unfold Stream.inspect at hs ⊢
      rw [← hlen]
      split at hs
      · rename_i hl
        rw [if_pos hl]
      · split at hs <;> cases hs
    rw [hs2] at k2
    obtain ⟨rfl, rfl⟩ := k2
    simp only [if_true]
    unfold inspectSeveral
    rw [bind_ret e2]
    exact ⟨_, _, rfl, rfl, rfl⟩
  | no =>
    rw [hs] at k1
    obtain ⟨rfl, rfl⟩ := k1
    simp only [show ¬ (0 : Int) = -1 by omega, if_true, if_false]
    unfold inspectSeveral
    rw [bind_ret e2]
    cases hs2 : Stream.inspect rest b with
    | short =>
      exfalso
      unfold Stream.inspect at hs hs2
      rw [hlen] at hs
      split at hs2
      · rename_i hl
        rw [if_pos hl] at hs
        cases hs
      · split at hs2 <;> cases hs2
    | no =>
      rw [hs2] at k2
      obtain ⟨rfl, rfl⟩ := k2
      exact ⟨_, _, rfl, rfl, rfl⟩
    | yes rest' =>
      rw [hs2] at k2
      obtain ⟨rfl, k2⟩ := k2
      exact ⟨_, _, rfl, by decide, k2⟩
  | yes rest' =>
    rw [hs] at k1
    obtain ⟨rfl, k1⟩ := k1
    exact ⟨_, _, rfl, by decide, k1⟩

theorem two_gt (h : At c fac st rest w) {a b : List Char} (ha : NUL ∉ a) (hb : NUL ∉ b) (hlen : a.length = b.length) :
    ∃ r w', inspectSeveral 0 0 [a, b] w = .ret r w' ∧
      match Stream.inspectTwo rest a b with
      | .yes rest' => r > 0 ∧ At c fac st rest' w' ∧ Clean w'
      | _ => ¬ r > 0 ∧ w' = w := by
  obtain ⟨r, w', e, k⟩ := two_at h ha hb hlen
  refine ⟨r, w', e, ?_⟩
  cases hs : Stream.inspectTwo rest a b with
  | short =>
    rw [hs] at k
    exact ⟨by omega, k.2⟩
  | no =>
    rw [hs] at k
    exact ⟨by omega, k.2⟩
  | yes rest' =>
    rw [hs] at k
    exact k

theorem two_notZero (h : At c fac st rest w) {a b : List Char} (ha : NUL ∉ a) (hb : NUL ∉ b) (hlen : a.length = b.length) :
    ∃ r w', inspectSeveral 0 0 [a, b] w = .ret r w' ∧
      match Parse.notZero (Stream.inspectTwo rest a b) rest with
      | some rest' => r ≠ 0 ∧ At c fac st rest' w'
      | none => ¬ r ≠ 0 ∧ w' = w := by
  obtain ⟨r, w', e, k⟩ := two_at h ha hb hlen
  refine ⟨r, w', e, ?_⟩
  unfold Parse.notZero
  cases hs : Stream.inspectTwo rest a b with
  | short =>
    rw [hs] at k
    obtain ⟨rfl, rfl⟩ := k
    exact ⟨by omega, h⟩
  | no =>
    rw [hs] at k
    exact ⟨by omega, k.2⟩
  | yes rest' =>
    rw [hs] at k
    exact ⟨by omega, k.2.1⟩

theorem inspect_notZero (h : At c fac st rest w) {a : List Char} (ha : NUL ∉ a) :
    ∃ r w', inspect a w = .ret r w' ∧
      match Parse.notZero (Stream.inspect rest a) rest with
      | some rest' => r ≠ 0 ∧ At c fac st rest' w'
      | none => ¬ r ≠ 0 ∧ w' = w := by
  obtain ⟨r, w', e, _, k⟩ := inspect_at h ha
  refine ⟨r, w', e, ?_⟩
  unfold Parse.notZero
  cases hs : Stream.inspect rest a with
  | short =>
    rw [hs] at k
    obtain ⟨rfl, rfl⟩ := k
    exact ⟨by omega, h⟩
  | no =>
    rw [hs] at k
    exact ⟨by omega, k.2⟩
  | yes rest' =>
    rw [hs] at k
    exact ⟨by omega, k.2.1⟩

/-- The place, when a text that is not that of an instruction may be kept. -/
def Near (c : Cfg) (fac : Bool) (st : Parse.St) (rest : List Char) (w : World) : Prop :=
  ∃ ms d, Live c.src c.ask [] c.enc w ms d ∧ c.src.drop ms.index = rest ∧ d.st = st ∧ d.alone = c.alone ∧ d.header = c.header ∧
    ms.factory = fac

theorem At.near (h : At c fac st rest w) : Near c fac st rest w := by
  obtain ⟨ms, d, hl, h1, h2, h3, h4, h5, h6⟩ := h
  exact ⟨ms, d, hl, h1, h2, h3, h4, h5⟩

theorem headerEncoding_ref (h : At c false st rest w) (hn : c.enc = none) :
    Ref c false (fun b a w => a = true ∧ At { c with enc := b.1 } false st b.2 w) (Parse.encoding rest) (headerEncoding w) := by
  unfold headerEncoding Parse.encoding
  obtain ⟨r, w1, e1, k1⟩ := two_gt h (a := c!"encoding=\"") (b := c!"encoding='") (by decide) (by decide) rfl
  rw [bind_ret e1, ite_run]
  have hno : Ref c false (fun b a w => a = true ∧ At { c with enc := b.1 } false st b.2 w) (.ok (none, rest)) ((pure true : M Bool) w) := by
    refine ⟨rfl, ?_⟩
    rw [← hn]
    exact h
  cases hs : Stream.inspectTwo rest c!"encoding=\"" c!"encoding='" with
  | short =>
    rw [hs] at k1
    obtain ⟨k1, rfl⟩ := k1
    rw [if_neg k1]
    exact hno
  | no =>
    rw [hs] at k1
    obtain ⟨k1, rfl⟩ := k1
    rw [if_neg k1]
    exact hno
  | yes rest1 =>
    rw [hs] at k1
    obtain ⟨k1, h1, _⟩ := k1
    rw [if_pos k1]
    dsimp only
    unfold Parse.headerValue
    have h1' := h1
    obtain ⟨ms, d, hl, q1, q2, q3, q4, q5, q6⟩ := h1
    have hg := getUntil_keep hl (chunks := [c!"'", c!"\""]) (by decide) q5
    rw [q1] at hg
    cases hf : Stream.getUntil [c!"'", c!"\""] rest1 with
    | none =>
      rw [hf] at hg
      rw [bind_ret hg]
      exact fail_ref h1' (by omega) (by decide) _ _
    | some f =>
      rw [hf] at hg
      obtain ⟨id, w2, ms2, e2, hl2, r1, r2, r3, r4, _⟩ := hg
      rw [bind_ret e2]
      dsimp only
      rw [bind_ret (nullify_run hl2.stream), bind_ret (getD_eq (w := { w2 with stream := some { ms2 with lastChunk := none } }) (d := d) hl2.doc), bind_setD]
      have henc : d.encoding = none := by
        have := hl.enc
        unfold EncIs at this
        cases hd : d.encoding with
        | none => rfl
        | some id =>
          rw [hd] at this
          obtain ⟨_, _, _, hx⟩ := this
          rw [hn] at hx
          cases hx
      refine ⟨rfl, { ms2 with lastChunk := none }, { d with encoding := some id }, ?_, r3, q2, q3, q4, r4, .inl rfl⟩
      refine ⟨rfl, rfl, hl2.size, hl2.len, hl2.idx, hl2.mem, hl2.bytes, hl2.near, hl2.foll, hl2.linked, ?_, ?_, hl2.errors⟩
      · have := hl2.owns
        rw [r1, henc] at this
        exact this
      · show ∃ data, w2.heap id = some ⟨data, false⟩ ∧ NUL ∈ data ∧ some (toStr f.text) = some (toStr data)
        exact ⟨_, r2, by simp, by rw [toStr_snoc]⟩

theorem memcmpYes_eq (t : List Char) :
    match Parse.isYes t with
    | .ok b => memcmpYes (t ++ [NUL]) = some b
    | .ub => memcmpYes (t ++ [NUL]) = none
    | _ => False := by
  unfold Parse.isYes memcmpYes
  by_cases h : t.length + 1 < 3
  · rw [if_pos h]
    simp [h]
  · rw [if_neg h]
    simp only [List.length_append, List.length_singleton, h, if_false]
    have h3 : 2 ≤ t.length := by omega
    match t, h3 with
    | [x, y], _ => 
      simp only [List.cons_append, List.nil_append, List.take, Option.some.injEq]
      rw [Bool.eq_iff_iff]
      simp only [beq_iff_eq, List.isPrefixOf_iff_prefix]
      constructor
      · intro h
        injection h with _ h
        injection h with _ h
        injection h with h _
        exact absurd h (by decide)
      · intro h
        have := h.length_le
        simp at this
    | x :: y :: z :: u, _ =>
      simp only [List.cons_append, List.take, Option.some.injEq]
      rw [Bool.eq_iff_iff]
      simp only [beq_iff_eq, List.isPrefixOf_iff_prefix]
      constructor
      · intro h
        injection h with h1 h
        injection h with h2 h
        injection h with h3 _
        subst h1 h2 h3
        exact ⟨u, rfl⟩
      · rintro ⟨v, h⟩
        injection h with h1 h
        injection h with h2 h
        injection h with h3 _
        subst h1 h2 h3
        rfl

theorem headerStandalone_ref (h : At c false st rest w) (hn : c.alone = false) :
    Ref c false (fun b a w => a = true ∧ Near { c with alone := b.1 } false st b.2 w) (Parse.standalone rest) (headerStandalone w) := by
  unfold headerStandalone Parse.standalone
  obtain ⟨r, w1, e1, k1⟩ := two_gt h (a := c!"standalone=\"") (b := c!"standalone='") (by decide) (by decide) rfl
  rw [bind_ret e1, ite_run]
  have hno : Ref c false (fun b a w => a = true ∧ Near { c with alone := b.1 } false st b.2 w) (.ok (false, rest)) ((pure true : M Bool) w) := by
    refine ⟨rfl, ?_⟩
    have := h.near
    rw [show c = { c with alone := false } by rw [← hn]] at this
    exact this
  cases hs : Stream.inspectTwo rest c!"standalone=\"" c!"standalone='" with
  | short =>
    rw [hs] at k1
    obtain ⟨k1, rfl⟩ := k1
    rw [if_neg k1]
    exact hno
  | no =>
    rw [hs] at k1
    obtain ⟨k1, rfl⟩ := k1
    rw [if_neg k1]
    exact hno
  | yes rest1 =>
    rw [hs] at k1
    obtain ⟨k1, h1, _⟩ := k1
    rw [if_pos k1]
    dsimp only
    unfold Parse.headerValue
    have h1' := h1
    obtain ⟨ms, d, hl, q1, q2, q3, q4, q5, q6⟩ := h1
    have hg := getUntil_keep hl (chunks := [c!"'", c!"\""]) (by decide) q5
    rw [q1] at hg
    cases hf : Stream.getUntil [c!"'", c!"\""] rest1 with
    | none =>
      rw [hf] at hg
      rw [bind_ret hg]
      exact fail_ref h1' (by omega) (by decide) _ _
    | some f =>
      rw [hf] at hg
      obtain ⟨id, w2, ms2, e2, hl2, r1, r2, r3, r4, _⟩ := hg
      rw [bind_ret e2]
      dsimp only
      rw [bind_ret (m := readBlock id) (a := f.text ++ [NUL]) (w' := w2) (by simp [readBlock, r2])]
      have hm := memcmpYes_eq f.text
      cases hy : Parse.isYes f.text with
      | ok b =>
        rw [hy] at hm
        rw [hm, bind_some_run, bind_ret (getD_eq (d := d) hl2.doc), bind_setD]
        exact ⟨rfl, ms2, { d with alone := b }, hl2.setDoc rfl, r3, q2, rfl, q4, r4⟩
      | ub =>
        rw [hy] at hm
        rw [hm]
        trivial
      | error =>
        rw [hy] at hm
        exact hm.elim
      | loop =>
        rw [hy] at hm
        exact hm.elim

theorem headerEnd_ref (h : Near c false st rest w) (hh : c.header = false) :
    Ref c false (ItemsOk c st)
      (match Stream.eat (Stream.skip rest) c!"?>" with
        | none => .error
        | some s => Parse.comments false (s.length + 1) st s) (headerEnd w) := by
  unfold headerEnd
  obtain ⟨ms, d, hl, h1, h2, h3, h4, h5⟩ := h
  obtain ⟨ms', e, k1, k2, _, _, k3, k4⟩ := skip_live hl
  rw [bind_ret e]
  have hi := inspect_live k1 (chunk := c!"?>") (by decide)
  rw [k2, h1] at hi
  unfold Stream.eat
  cases hs : Stream.inspect (Stream.skip rest) c!"?>" with
  | short =>
    rw [hs] at hi
    rw [bind_ret hi]
    exact fail_live k1 (by omega) (by decide) _ _
  | no =>
    rw [hs] at hi
    rw [bind_ret hi]
    exact fail_live k1 (by omega) (by decide) _ _
  | yes rest' =>
    rw [hs] at hi
    obtain ⟨w2, ms2, e2, hl2, r1, r2, _, r4⟩ := hi
    rw [bind_ret e2, ite_run, if_pos (by omega)]
    dsimp only
    have hE := comments_ref (c := c) (st := st) (rest := rest') (w := w2) ⟨ms2, d, hl2, r1.symm, h2, h3, h4, r2.trans (k3.trans h5), .inl r4⟩
    rw [hh] at hE
    exact hE

/-- The header and the comments after it. -/
def withComments (st : Parse.St) (b : Option (List Char) × Bool × List Char) : Res (Option (List Char) × Bool × Parse.St × List Char) := do
  let (st, s) ← Parse.comments false (b.2.2.length + 1) st b.2.2
  .ok (b.1, b.2.1, st, s)

/-- What reading the header gives. -/
def HeaderOk (c : Cfg) (b : Option (List Char) × Bool × Parse.St × List Char) (a : Bool) (w : World) : Prop :=
  a = true ∧ At { c with enc := b.1, alone := b.2.1 } false b.2.2.1 b.2.2.2 w

theorem Ref.cfg {α β : Type} {c' : Cfg} {fl : α} {ok : β → α → World → Prop} {r : Res β} {o : Out α} (h : Ref c' fl ok r o)
    (hs : c'.src = c.src) (ha : c'.ask = c.ask) : Ref c fl ok r o := by
  unfold Ref at *
  rw [← hs, ← ha]
  exact h

theorem headerRest_ref (h : At c false st rest w) (he : c.enc = none) (ha : c.alone = false) (hh : c.header = false) :
    Ref c false (HeaderOk c) (do
      let (enc, s) ← Parse.encoding (Stream.skip rest)
      let (alone, s) ← Parse.standalone (Stream.skip s)
      match Stream.eat (Stream.skip s) c!"?>" with
      | none => .error
      | some s => withComments st (enc, alone, s)) (headerRest w) := by
  unfold headerRest
  obtain ⟨w1, e1, h1, _⟩ := skip_at h
  rw [bind_ret e1]
  refine Ref.bind (headerEncoding_ref h1 he) (fun _ => rfl) ?_
  rintro ⟨enc, s2⟩ a w2 ⟨rfl, h2⟩
  simp only at h2
  simp only [if_true]
  obtain ⟨w3, e3, h3, _⟩ := skip_at h2
  rw [bind_ret e3]
  refine Ref.bind (Ref.cfg (headerStandalone_ref h3 ha) rfl rfl) (fun _ => rfl) ?_
  rintro ⟨alone, s4⟩ a w4 ⟨rfl, h4⟩
  simp only at h4
  simp only [if_true]
  have hE := headerEnd_ref h4 hh
  cases hs : Stream.eat (Stream.skip s4) c!"?>" with
  | none =>
    rw [hs] at hE
    cases hm : headerEnd w4 <;> rw [hm] at hE <;> exact hE
  | some s5 =>
    rw [hs] at hE
    dsimp only at hE ⊢
    unfold withComments
    cases hc : Parse.comments false (s5.length + 1) st s5 with
    | ok b =>
      rw [hc] at hE
      cases hm : headerEnd w4 with
      | ret a w5 =>
        rw [hm] at hE
        exact ⟨hE.1, hE.2.1⟩
      | _ => rw [hm] at hE; exact hE.elim
    | _ => rw [hc] at hE; cases hm : headerEnd w4 <;> rw [hm] at hE <;> exact hE

theorem xmlDecl_ref (h : At c false st rest w) (he : c.enc = none) (ha : c.alone = false) (hh : c.header = false) :
    Ref c false (HeaderOk c) (Parse.xmlDecl rest >>= withComments st) (xmlDecl w) := by
  unfold xmlDecl Parse.xmlDecl
  obtain ⟨r, w1, e1, _, k1⟩ := eat_at h (chunk := c!"xml") (by decide)
  rw [bind_ret e1, ite_run]
  cases hs : Stream.eat rest c!"xml" with
  | none =>
    rw [hs] at k1
    rw [if_neg k1.1]
    exact fail_ref k1.2 (by omega) (by decide) _ _
  | some s1 =>
    rw [hs] at k1
    obtain ⟨k1, h1, _⟩ := k1
    rw [if_pos k1]
    dsimp only
    obtain ⟨w2, e2, h2, _⟩ := skip_at h1
    rw [bind_ret e2]
    obtain ⟨r3, w3, e3, k3⟩ := inspect_notZero h2 (a := c!"version=") (by decide)
    rw [bind_ret e3, ite_run]
    cases hs3 : Parse.notZero (Stream.inspect (Stream.skip s1) c!"version=") (Stream.skip s1) with
    | none =>
      rw [hs3] at k3
      obtain ⟨k3, rfl⟩ := k3
      rw [if_neg k3]
      exact fail_ref h2 (by omega) (by decide) _ _
    | some s3 =>
      rw [hs3] at k3
      obtain ⟨k3, h3⟩ := k3
      rw [if_pos k3]
      dsimp only
      obtain ⟨w4, e4, h4, _⟩ := skip_at h3
      rw [bind_ret e4]
      obtain ⟨r5, w5, e5, k5⟩ := two_notZero h4 (a := c!"\"1.0\"") (b := c!"'1.0'") (by decide) (by decide) rfl
      rw [bind_ret e5, ite_run]
      cases hs5 : Parse.notZero (Stream.inspectTwo (Stream.skip s3) c!"\"1.0\"" c!"'1.0'") (Stream.skip s3) with
      | none =>
        rw [hs5] at k5
        obtain ⟨k5, rfl⟩ := k5
        rw [if_neg k5]
        exact fail_ref h4 (by omega) (by decide) _ _
      | some s5 =>
        rw [hs5] at k5
        obtain ⟨k5, h5⟩ := k5
        rw [if_pos k5]
        dsimp only
        have hR := headerRest_ref h5 he ha hh
        cases hx : Parse.encoding (Stream.skip s5) with
        | ok b =>
          rw [hx] at hR
          obtain ⟨enc, s6⟩ := b
          cases hy : Parse.standalone (Stream.skip s6) with
          | ok b2 =>
            obtain ⟨alone, s7⟩ := b2
            simp only [bind, Res.bind, hy] at hR ⊢
            cases hz : Stream.eat (Stream.skip s7) c!"?>" with
            | none => rw [hz] at hR; exact hR
            | some s8 => rw [hz] at hR; exact hR
          | _ => simp only [bind, Res.bind, hy] at hR ⊢; exact hR
        | _ => simp only [bind, Res.bind, hx] at hR ⊢; exact hR

theorem doctype_ref (h : At c false st rest w) (hh : c.header = false) :
    Ref c false (ItemsOk c st) (Parse.doctype st rest) (doctype w) := by
  unfold doctype Parse.doctype
  obtain ⟨r, w1, e1, _, k1⟩ := eat_at h (chunk := c!"<!DOCTYPE") (by decide)
  rw [bind_ret e1, ite_run]
  cases hs : Stream.eat rest c!"<!DOCTYPE" with
  | none =>
    rw [hs] at k1
    rw [if_neg k1.1]
    exact ⟨rfl, k1.2, rfl⟩
  | some s1 =>
    rw [hs] at k1
    obtain ⟨k1, h1, _⟩ := k1
    rw [if_pos k1]
    dsimp only
    have hg := ref_at h1 (chunks := [c!">"]) (by decide)
    cases hs : Stream.getUntilRef [c!">"] s1 with
    | mk text rest2 =>
      rw [hs] at hg
      cases text with
      | none =>
        obtain ⟨w3, e3, h3⟩ := hg
        rw [bind_ret e3]
        have hE := comments_ref h3
        rw [hh] at hE
        exact hE
      | some text =>
        obtain ⟨start, w3, ms, d, tail, e3, hl, q1, q2, q3, q4, q5, q0, q6, q7, q8⟩ := hg
        rw [bind_ret e3]
        have hE := comments_ref (c := c) (st := st) (rest := rest2) (w := w3) ⟨ms, d, hl, q1, q2, q3, q4, q5, .inl q0⟩
        rw [hh] at hE
        exact hE

theorem rewrites_nul {p : Char} {s out : List Char} (h : Spec.Str.Rewrites [p] [] s out) (hs : NUL ∉ s) : NUL ∉ out := by
  induction h with
  | nil => exact hs
  | occurrence _ _ ih => exact ih fun h => hs (by simp [h])
  | other _ _ ih =>
    intro h
    rcases List.mem_cons.1 h with h | h
    · exact hs (by simp [h])
    · exact ih (fun h => hs (by simp [h])) h

theorem remove_run {p : Char} (s tail : List Char) (hs : NUL ∉ s) :
    ∃ out rest, remove (s ++ NUL :: tail) [p] false = some (out ++ NUL :: rest) ∧ NUL ∉ out := by
  obtain ⟨out, b', h1, ⟨rest, h2, _⟩, h3⟩ := remove_all_spec s tail [p] hs (by
    rintro ⟨x, y, hx, hy, e, _⟩
    have := congrArg List.length e
    have := List.length_pos_iff.2 hx
    have := List.length_pos_iff.2 hy
    simp at *
    omega)
  exact ⟨out, rest, by rw [h1, h2], rewrites_nul h3 hs⟩

theorem configureEncoding_run (h : At c fac st rest w) : ∃ w', configureEncoding w = .ret () w' ∧ At c fac st rest w' := by
  obtain ⟨ms, d, hl, h1, h2, h3, h4, h5, h6⟩ := h
  unfold configureEncoding
  rw [bind_ret (getD_eq hl.doc)]
  cases hd : d.encoding with
  | none => exact ⟨w, rfl, ms, d, hl, h1, h2, h3, h4, h5, h6⟩
  | some id =>
    dsimp only
    have henc := hl.enc
    unfold EncIs at henc
    rw [hd] at henc
    obtain ⟨data, hid, hnul, _⟩ := henc
    have hsd : strdup id w = .ret w.next { w with heap := fun i => if i = w.next then some ⟨toStr data ++ [NUL], false⟩ else w.heap i, next := w.next + 1 } := by
      unfold strdup
      rw [bind_ret (readStr_run hid hnul)]
      rfl
    rw [bind_ret hsd]
    rw [bind_ret (m := readBlock w.next) (a := toStr data ++ [NUL]) (w' := { w with heap := fun i => if i = w.next then some ⟨toStr data ++ [NUL], false⟩ else w.heap i, next := w.next + 1 }) (by simp [readBlock])]
    have hn : NUL ∉ toStr data := Parse.nul_cstr data
    obtain ⟨t, ⟨l, r, e0, _⟩, e1⟩ := trimWithSize_spec (toStr data) [] hn
    have ht : NUL ∉ t := fun h => hn (by rw [e0]; simp [h])
    obtain ⟨o1, r1, e2, n1⟩ := remove_run (p := '-') t (((toStr data) ++ NUL :: []).drop (t.length + 1)) ht
    obtain ⟨o2, r2, e3, n2⟩ := remove_run (p := '_') o1 r1 n1
    rw [e1, bind_some_run, e2, bind_some_run, e3, bind_some_run]
    rw [bind_ret (m := writeBlock w.next _) (a := ()) (w' := { w with heap := fun i => if i = w.next then some ⟨(o2 ++ NUL :: r2).map toLower, false⟩ else w.heap i, next := w.next + 1 }) (by
      simp only [writeBlock, if_true]
      congr 2
      funext i
      split <;> rfl)]
    refine ⟨{ w with next := w.next + 1 }, ?_, ms, d, hl.bump _ (by omega), h1, h2, h3, h4, h5, h6⟩
    simp only [free, if_true, Bool.false_eq_true, if_false]
    congr 2
    funext i
    split
    · rename_i h
      rw [h, hl.owns.fresh _ (Nat.le_refl _)]
    · rfl

theorem headerTail_ref (h : At c false st rest w) (hh : c.header = false) :
    Ref c false (ItemsOk c st) (Parse.doctype st rest) (headerTail w) := by
  unfold headerTail
  obtain ⟨w1, e1, h1⟩ := configureEncoding_run h
  rw [bind_ret e1]
  exact doctype_ref h1 hh

theorem parseHeader_ref (h : At c false Parse.St.new c.src w) (hi : ∀ ms, w.stream = some ms → ms.index = 0)
    (he : c.enc = none) (ha : c.alone = false) (hh : c.header = false) :
    Ref c false (HeaderOk c) (Parse.parseHeader c.src) (parseHeader w) := by
  unfold parseHeader Parse.parseHeader
  obtain ⟨d, e1, _, q2⟩ := getD_at h
  rw [bind_ret e1, q2, hh]
  simp only [Bool.false_eq_true, if_false]
  have hb : ∃ w1, At c false Parse.St.new (Parse.skipBom c.src) w1 ∧ ∀ {β : Type} (k : M β),
      (check ['ï', '»', '¿'] >>= fun bom => if bom = true then (move 3 >>= fun _ => k) else k) w = k w1 := by
    have h0 := h
    obtain ⟨ms, d, hl, k1, k2, k3, k4, k5, k6⟩ := h
    have hidx := hi ms hl.stream
    have hmem := hl.mem
    have hsb := sameBytes_eq (chunk := ['ï', '»', '¿']) hl.mem (by decide)
    have hck : check ['ï', '»', '¿'] w = .ret (List.isPrefixOf ['ï', '»', '¿'] c.src) w := by
      unfold check
      rw [bind_ret (getS_eq hl.stream), hsb, k1]
      rfl
    unfold Parse.skipBom Stream.eat Stream.inspect
    by_cases hp : List.isPrefixOf ['ï', '»', '¿'] c.src = true
    · have hlen : 3 ≤ c.src.length := (List.isPrefixOf_iff_prefix.1 hp).length_le
      have hm3 : ms.mem.drop 3 = c.src.drop 3 ++ [NUL] := by
        rw [hidx] at hmem
        simp only [List.drop_zero] at hmem
        rw [hmem, List.drop_append_of_le_length hlen]
      obtain ⟨w1, e2, h2⟩ := move_at h0 (i := 3) hlen fun m hm => by
        rw [hl.stream] at hm
        cases hm
        exact hm3
      refine ⟨w1, ?_, fun k => ?_⟩
      · rw [if_neg (by simp only [List.length_cons, List.length_nil]; omega), if_pos hp]
        exact h2
      · rw [bind_ret hck, ite_run, if_pos hp]
        exact bind_ret e2
    · refine ⟨w, ?_, fun k => ?_⟩
      · by_cases hl3 : c.src.length < ['ï', '»', '¿'].length
        · rw [if_pos hl3]
          exact h0
        · rw [if_neg hl3, if_neg hp]
          exact h0
      · rw [bind_ret hck, ite_run, if_neg hp]
  obtain ⟨w1, h1, hk⟩ := hb
  refine (congrArg (Ref c _ _ _) (hk _)).mpr ?_
  obtain ⟨r, w2, e2, k2⟩ := inspect_notZero h1 (a := c!"<?") (by decide)
  rw [bind_ret e2, ite_run]
  cases hs : Parse.notZero (Stream.inspect (Parse.skipBom c.src) c!"<?") (Parse.skipBom c.src) with
  | none =>
    rw [hs] at k2
    obtain ⟨k2, rfl⟩ := k2
    rw [if_neg k2]
    dsimp only
    have hT := headerTail_ref h1 hh
    cases hc : Parse.doctype Parse.St.new (Parse.skipBom c.src) with
    | ok b =>
      rw [hc] at hT
      cases hm : headerTail w2 with
      | ret a w5 =>
        rw [hm] at hT
        refine ⟨hT.1, ?_⟩
        have h3 := hT.2.1
        rw [show c = { c with enc := none, alone := false } by rw [← he, ← ha]] at h3
        exact h3
      | _ => rw [hm] at hT; exact hT.elim
    | _ => rw [hc] at hT; cases hm : headerTail w2 <;> rw [hm] at hT <;> exact hT
  | some s2 =>
    rw [hs] at k2
    obtain ⟨k2, h2⟩ := k2
    rw [if_pos k2]
    dsimp only
    have hX := xmlDecl_ref h2 he ha hh
    have hre : (do
        let (enc, alone, s) ← Parse.xmlDecl s2
        let (st, s) ← Parse.comments false (s.length + 1) Parse.St.new s
        let (st, s) ← Parse.doctype st s
        .ok (enc, alone, st, s)) = ((Parse.xmlDecl s2 >>= withComments Parse.St.new) >>= fun b => do
        let (st, s) ← Parse.doctype b.2.2.1 b.2.2.2
        Res.ok (b.1, b.2.1, st, s)) := by
      cases Parse.xmlDecl s2 with
      | ok b =>
        simp only [bind, Res.bind, withComments]
        cases Parse.comments false (b.2.2.length + 1) Parse.St.new b.2.2 <;> rfl
      | _ => rfl
    rw [hre]
    refine Ref.bind hX (fun _ => rfl) ?_
    rintro ⟨enc, alone, st3, s3⟩ a w3 ⟨rfl, h3⟩
    simp only at h3
    simp only [if_true]
    have hT := headerTail_ref h3 hh
    cases hc : Parse.doctype st3 s3 with
    | ok b =>
      rw [hc] at hT
      cases hm : headerTail w3 with
      | ret a w5 =>
        rw [hm] at hT
        exact ⟨hT.1, hT.2.1⟩
      | _ => rw [hm] at hT; exact hT.elim
    | _ => rw [hc] at hT; cases hm : headerTail w3 <;> rw [hm] at hT <;> exact hT

/-- The end of a parse that gives a document. -/
structure Finished (c : Cfg) (doc : Doc) (w : World) : Prop where
  document : w.document = some doc
  only     : Spec.ParseMem.OnlyDocument w
  errors   : Spec.ParseMem.NoError c.ask w

theorem finish_ref (h : At c false st rest w) (hr : st.opened = [] → st.root.isSome = true) :
    Ref c false (fun doc a w => a = true ∧ Finished c doc w)
      (if !st.opened.isEmpty then .error
        else
          match st.root with
          | none => .ub
          | some root => .ok ⟨c.enc, c.alone, root, st.pis, st.noValue⟩) (finish w) := by
  unfold finish
  have h0 := h
  obtain ⟨ms, d, hl, h1, h2, h3, h4, h5, h6⟩ := h
  rw [bind_ret (getD_eq hl.doc), h2, ite_run]
  by_cases ho : st.opened = []
  · rw [if_pos ho, if_neg (by simp [ho])]
    have hroot := hr ho
    cases hroot' : st.root with
    | none => rw [hroot'] at hroot; cases hroot
    | some root =>
      dsimp only
      have hu : unlink w = .ret () { w with stream := some { ms with linked := false } } := by
        unfold unlink
        rw [bind_ret (getS_eq hl.stream)]
        rfl
      obtain ⟨heap', e1, k1, k2⟩ := streamFree_unlinked (w := { w with stream := some { ms with linked := false } })
        (ms := { ms with linked := false }) rfl rfl (ids := d.encoding.toList) (by
          have := hl.owns
          simp only [hl.near, hl.foll, Option.toList_none, List.nil_append]
          simpa using this)
      rw [bind_ret hu, bind_ret e1]
      rw [bind_ret (getD_eq (d := d) (w := { w with stream := none, heap := heap' }) hl.doc), bind_setD]
      refine ⟨rfl, ?_, ⟨rfl, _, rfl, fun i b hb => ?_⟩, hl.errors⟩
      · unfold World.document
        dsimp only
        rw [h2, hroot']
        dsimp only
        have henc := hl.enc
        unfold EncIs at henc
        rw [h3]
        cases hd : d.encoding with
        | none =>
          rw [hd] at henc
          rw [henc]
          rfl
        | some id =>
          rw [hd] at henc
          obtain ⟨data, e2, _, e3⟩ := henc
          have := k2 id (by simp [hd])
          simp only at this
          simp only [Option.bind_some, this, e2, e3]
          rfl
      · refine (k1.only i b hb).imp id fun hi => ?_
        simpa using hi
  · rw [if_neg ho, if_pos (by simp [ho])]
    exact fail_ref h0 (by omega) (by decide) _ _

theorem parseBody_ref (h : At c false Parse.St.new rest w) (hh : c.header = false) :
    Ref c false (fun doc a w => a = true ∧ Finished c doc w) (do
      let st ← Parse.body Parse.St.new rest
      if !st.opened.isEmpty then .error
      else
        match st.root with
        | none => .ub
        | some root => .ok ⟨c.enc, c.alone, root, st.pis, st.noValue⟩) (parseBody w) := by
  unfold parseBody
  obtain ⟨ms, d, hl, h1, h2, h3, h4, h5, h6⟩ := h
  rw [bind_ret (getD_eq hl.doc), bind_setD]
  have hH : At { c with header := true } false Parse.St.new rest { w with doc := some { d with header := true } } :=
    ⟨ms, _, hl.setDoc rfl, h1, h2, h3, rfl, h5, h6⟩
  have hsat := Parse.body_sat (st := Parse.St.new) rfl rest
  revert hsat
  unfold Parse.body
  intro hsat
  have hP := parseNode_ref hH rfl
  cases hp : Parse.parseNode Parse.St.new rest with
  | ok b =>
    obtain ⟨st1, s1, empty⟩ := b
    rw [hp] at hP hsat
    cases hm : parseNode { w with doc := some { d with header := true } } with
    | ret a w1 =>
      rw [hm] at hP
      obtain ⟨rfl, hA⟩ := hP
      rw [bind_ret hm]
      simp only [bind, Res.bind] at hsat ⊢
      rw [ite_run]
      cases empty with
      | true =>
        simp only [if_true] at hsat ⊢
        refine Ref.cfg (finish_ref hA fun ho => ?_) rfl rfl |>.imp fun b a w hx => ⟨hx.1, hx.2.1, hx.2.2, hx.2.3⟩
        obtain ⟨_, _, _, _, _, _, _, _, _, hx⟩ := hsat
        rcases hx with hx | ⟨n, hx, _⟩
        · exact absurd ho hx
        · simp [hx]
      | false =>
        simp only [Bool.false_eq_true, if_false] at hsat ⊢
        obtain ⟨s, e2, q, _⟩ := getS_at hA
        show Ref _ _ _ _ ((getS >>= _) w1)
        rw [bind_ret e2, q]
        have hM := mainLoop_ref (c := { c with header := true }) rfl (s1.length + 1) hA
        cases hml : Parse.mainLoop (s1.length + 1) st1 s1 with
        | ok st2 =>
          rw [hml] at hM hsat
          cases hmm : mainLoop (s1.length + 1) (top st1) w1 with
          | ret a2 w2 =>
            rw [hmm] at hM
            obtain ⟨rfl, rest2, hA2⟩ := hM
            show Ref _ _ _ _ ((mainLoop (s1.length + 1) (top st1) >>= _) w1)
            rw [bind_ret hmm]
            simp only [if_true]
            refine Ref.cfg (finish_ref hA2 fun ho => ?_) rfl rfl |>.imp fun b a w hx => ⟨hx.1, hx.2.1, hx.2.2, hx.2.3⟩
            obtain ⟨_, _, _, _, _, _, _, _, _, hx⟩ := hsat
            rcases hx with hx | ⟨n, hx, _⟩
            · exact absurd ho hx
            · simp [hx]
          | _ => rw [hmm] at hM; exact hM.elim
        | error =>
          rw [hml] at hM
          cases hmm : mainLoop (s1.length + 1) (top st1) w1 with
          | ret a2 w2 =>
            rw [hmm] at hM
            obtain ⟨rfl, hd⟩ := hM
            show Ref _ _ _ _ ((mainLoop (s1.length + 1) (top st1) >>= _) w1)
            rw [bind_ret hmm]
            exact ⟨rfl, hd⟩
          | _ => rw [hmm] at hM; exact hM.elim
        | ub => rw [hml] at hsat; exact hsat.elim
        | loop => rw [hml] at hsat; exact hsat.elim
    | _ => rw [hm] at hP; exact hP.elim
  | error =>
    rw [hp] at hP
    cases hm : parseNode { w with doc := some { d with header := true } } with
    | ret a w1 =>
      rw [hm] at hP
      obtain ⟨rfl, hd⟩ := hP
      rw [bind_ret hm]
      exact ⟨rfl, hd⟩
    | _ => rw [hm] at hP; exact hP.elim
  | ub => rw [hp] at hsat; exact hsat.elim
  | loop => rw [hp] at hsat; exact hsat.elim

theorem streamNew_run {source src : List Char} {size : Int} (h : Spec.ParseMem.Given source size src) (w : World) :
    streamNew source size w = .ret () { w with stream := some ⟨src ++ [NUL], 0, src.length, 0, 0, none, none, none, false, false⟩ } := by
  unfold streamNew
  have hcopy : ∀ rest, copyBytes (src ++ rest) 0 src.length = some src := by
    intro rest
    unfold copyBytes
    rw [if_pos (by simp)]
    simp
  rcases h with ⟨rfl, hn, rest, rfl⟩ | ⟨rfl, rest, rfl⟩
  · rw [if_pos rfl]
    rw [show strlen (src ++ Char.ofNat 0 :: rest) = some src.length from strlen_spec src rest hn]
    rw [Option.map_some, bind_some_run, if_neg (by simp)]
    show (M.ofOption (copyBytes _ 0 src.length) >>= _) w = _
    rw [hcopy, bind_some_run]
    rfl
  · rw [if_neg (by omega), bind_some_run, if_neg (by omega)]
    show (M.ofOption (copyBytes _ 0 src.length) >>= _) w = _
    rw [hcopy, bind_some_run]
    rfl

theorem docParse_ref {source src : List Char} {size : Int} (hg : Spec.ParseMem.Given source size src) (ask : Bool) :
    Ref ⟨src, ask, none, false, false⟩ false (fun doc a w => a = true ∧ Finished ⟨src, ask, none, false, false⟩ doc w)
      (Parse.parse src) (docParse (some source) size (World.start ask)) := by
  unfold docParse Parse.parse
  dsimp only
  rw [bind_ret (streamNew_run hg _)]
  unfold docNew
  rw [bind_setD]
  rw [bind_ret (m := link) (a := ()) (w' := { World.start ask with stream := some ⟨src ++ [NUL], 0, src.length, 0, 0, none, none, none, false, true⟩, doc := some ⟨Parse.St.new, none, false, false, false⟩ }) (by
    unfold link
    rw [bind_ret (getS_eq rfl)]
    rfl)]
  have hA : At ⟨src, ask, none, false, false⟩ false Parse.St.new src { World.start ask with stream := some ⟨src ++ [NUL], 0, src.length, 0, 0, none, none, none, false, true⟩, doc := some ⟨Parse.St.new, none, false, false, false⟩ } := by
    refine ⟨_, _, ⟨rfl, rfl, rfl, by simp, by simp, rfl, fun j x hx => ?_, rfl, rfl, rfl, ?_, rfl, rfl⟩, rfl, rfl, rfl, rfl, rfl, .inl rfl⟩
    · rw [List.getElem?_append] at hx
      split at hx
      · exact .inr hx
      · rename_i hlt
        rw [List.getElem?_singleton] at hx
        split at hx
        · cases hx
          exact .inl rfl
        · cases hx
    · exact ⟨by simp, by simp, fun i b hb => by simp [World.start] at hb, fun i _ => rfl⟩
  have hH := parseHeader_ref (c := ⟨src, ask, none, false, false⟩) hA (fun ms hms => by cases hms; rfl) rfl rfl rfl
  have hsat := Parse.parseHeader_sat src
  simp only at hH
  revert hH
  generalize { World.start ask with stream := some ⟨src ++ [NUL], 0, src.length, 0, 0, none, none, none, false, true⟩, doc := some ⟨Parse.St.new, none, false, false, false⟩ } = w0
  intro hH
  cases hp : Parse.parseHeader src with
  | ok b =>
    obtain ⟨enc, alone, st, rest⟩ := b
    rw [hp] at hH hsat
    obtain ⟨_, _, _, _, _, rfl⟩ := hsat
    cases hm : parseHeader w0 with
    | ret a w1 =>
      rw [hm] at hH
      obtain ⟨rfl, h1⟩ := hH
      rw [bind_ret hm]
      exact Ref.cfg (parseBody_ref h1 rfl) rfl rfl |>.imp fun b a w hx => ⟨hx.1, hx.2.1, hx.2.2, hx.2.3⟩
    | _ => rw [hm] at hH; exact hH.elim
  | error =>
    rw [hp] at hH
    cases hm : parseHeader w0 with
    | ret a w1 =>
      rw [hm] at hH
      obtain ⟨rfl, hd⟩ := hH
      rw [bind_ret hm]
      exact ⟨rfl, hd⟩
    | _ => rw [hm] at hH; exact hH.elim
  | ub =>
    rw [hp] at hH
    cases hm : parseHeader w0 with
    | ub => rw [bind_ub hm]; trivial
    | _ => rw [hm] at hH; exact hH.elim
  | loop => rw [hp] at hsat; exact hsat.elim

end

end Blocks
end Axl
