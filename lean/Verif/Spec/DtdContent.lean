/-
What a content model of a DTD means: the set of the sequences of names that it describes, as XML 1.0
(section 3.2.1) says, and the classes of content models that the theorems about the matcher are for.
-/
import Verif.Model.DtdMatch

namespace Axl.Dtd

/-- Sequences of names. -/
abbrev Word := List (List Char)

/-- Any number of words of `L`, one after the other. -/
inductive Star (L : Word → Prop) : Word → Prop where
  | nil : Star L []
  | cons {u v : Word} : L u → Star L v → Star L (u ++ v)

/-- A repetition applied to a language: once, `?`, `*` or `+`. -/
def Rep (L : Word → Prop) : Times → Word → Prop
  | .one, w => L w
  | .opt, w => w = [] ∨ L w
  | .many, w => Star L w
  | .some1, w => ∃ u v, w = u ++ v ∧ L u ∧ Star L v

mutual
/-- The words that a content particle describes.  A list without separator, `(a)`, has one item, so it is
the same to choose from it or to take it all. -/
def Part.Lang : Part → Word → Prop
  | .node t n => Rep (fun w => w = [n]) t
  | .list k t items => Rep (if k = .seq then SeqLang items else AltLang items) t
/-- The items one after the other. -/
def SeqLang : List Part → Word → Prop
  | [], w => w = []
  | p :: ps, w => ∃ u v, w = u ++ v ∧ p.Lang u ∧ SeqLang ps v
/-- One of the items. -/
def AltLang : List Part → Word → Prop
  | [], _ => False
  | p :: ps, w => p.Lang w ∨ AltLang ps w
end

/-- The words that a content model describes. -/
def Content.Lang (l : Content) : Word → Prop :=
  Rep (if l.kind = .seq then SeqLang l.items else AltLang l.items) l.times

mutual
/-- Does the particle describe the empty sequence? (`nullable_iff`) -/
def Part.nullable : Part → Bool
  | .node t _ => t.optional
  | .list k t items => t.optional || (if k = .seq then allNullable items else anyNullable items)
def allNullable : List Part → Bool
  | [] => true
  | p :: ps => p.nullable && allNullable ps
def anyNullable : List Part → Bool
  | [] => false
  | p :: ps => p.nullable || anyNullable ps
end

/-! ### Models for which the matcher accepts nothing else

Three facts about the matcher limit them.  When the children end at an item with `?` or `*`, the items
after it are not looked at; a failed list that has matched something leaves its children consumed; and
`(...)+` is satisfied by no repetition. -/

mutual
/-- A failure to match the particle consumes nothing. -/
def Part.quiet : Part → Bool
  | .node _ _ => true
  | .list k t items =>
    if k = .seq then seqQuiet items
    else t ≠ .one || altQuiet items
/-- A failure of the sequence is a failure of its first item. -/
def seqQuiet : List Part → Bool
  | [] => true
  | p :: ps => p.quiet && allSure ps
def altQuiet : List Part → Bool
  | [] => true
  | p :: ps => p.quiet && altQuiet ps
/-- As an item of a sequence the particle cannot fail. -/
def Part.sure : Part → Bool
  | .node t _ => t.optional
  | .list k t items => t.optional && (if k = .seq then t = .many && seqQuiet items else true)
def allSure : List Part → Bool
  | [] => true
  | p :: ps => p.sure && allSure ps
end

mutual
/-- The greatest number of children the particle can take (`none`: no limit). -/
def Part.most : Part → Option Nat
  | .node t _ =>
    match t with
    | .one => some 1
    | .opt => some 1
    | _ => none
  | .list k t items =>
    match t with
    | .one => if k = .seq then seqMost items else altMost items
    | .opt => if k = .seq then seqMost items else altMost items
    | _ => none
def seqMost : List Part → Option Nat
  | [] => some 0
  | p :: ps =>
    match p.most, seqMost ps with
    | some a, some b => some (a + b)
    | _, _ => none
def altMost : List Part → Option Nat
  | [] => some 0
  | p :: ps =>
    match p.most, altMost ps with
    | some a, some b => some (max a b)
    | _, _ => none
end

/-- Fewer than `min` children have been taken when an item is reached, `sofar` being the most that the
items before it can take. -/
def below (min : Nat) : Option Nat → Bool
  | some n => n < min
  | none => false

/-- If the children can end at an item with `?` or `*`, what follows it may be left out too.  At the top
of a declaration it also suffices that fewer children than `min`, the number required at least, have
been taken then. -/
def tidy (min : Nat) : Option Nat → List Part → Bool
  | _, [] => true
  | sofar, p :: ps =>
    (!p.times.optional || allNullable ps ||
      (below min sofar && match p with
        | .node .many _ => false
        | _ => true)) &&
    tidy min
      (match sofar, p.most with
       | some a, some b => some (a + b)
       | _, _ => none) ps

mutual
/-- The particle, nested in another list, is matched only by its words.  `fin`: nothing follows it in the
declaration. -/
def Part.exact (fin : Bool) : Part → Bool
  | .node _ _ => true
  | .list k t items =>
    (k ≠ .undef || items.length = 1) && (t ≠ .some1 || fin) &&
    if k = .seq then
      tidy 0 none items && seqExact (fin && (t = .one || t = .opt)) items
    else
      altExact (fin && (t = .one || t = .opt)) items && (if t = .one then initQuiet items else altQuiet items)
def seqExact (fin : Bool) : List Part → Bool
  | [] => true
  | p :: ps => p.exact (fin && ps.isEmpty) && seqExact fin ps
def altExact (fin : Bool) : List Part → Bool
  | [] => true
  | p :: ps => p.exact fin && altExact fin ps
/-- All the alternatives but the last are quiet. -/
def initQuiet : List Part → Bool
  | [] => true
  | p :: ps => (ps.isEmpty || p.quiet) && initQuiet ps
end

/-- The content models that accept only their words (`C35_accepted_partial`). -/
def Content.exact (l : Content) : Bool :=
  (l.kind ≠ .undef || l.items.length = 1) &&
  (l.times ≠ .some1 || 0 < compulsoryNum l) &&
  if l.kind = .seq then
    (if l.times = .one || l.times = .opt then tidy (compulsoryNum l) (some 0) l.items else tidy 0 none l.items) &&
      seqExact (l.times = .one || l.times = .opt) l.items
  else
    altExact (l.times = .one || l.times = .opt) l.items && (if l.times = .one then initQuiet l.items else altQuiet l.items)

/-! ### Models for which the matcher accepts all their words

The matcher reads the children from left to right and does not go back, so the next child has to decide
what to do: the determinism that XML asks for.  A choice has to be decided by the first child, so its
alternatives cannot be left out; a sequence with `?` is refused when it is not there. -/

mutual
/-- The names that can start a word. -/
def Part.first : Part → List (List Char)
  | .node _ n => [n]
  | .list k _ items => if k = .seq then seqFirst items else altFirst items
def seqFirst : List Part → List (List Char)
  | [] => []
  | p :: ps => p.first ++ (if p.nullable then seqFirst ps else [])
def altFirst : List Part → List (List Char)
  | [] => []
  | p :: ps => p.first ++ altFirst ps
end

mutual
/-- The names that can go on after a word, to make a longer one. -/
def Part.ext : Part → List (List Char)
  | .node t n => if t = .one then [] else [n]
  | .list k t items =>
    (if k = .seq then seqExt items else altExt items) ++
      (if t = .one then [] else if k = .seq then seqFirst items else altFirst items)
def seqExt : List Part → List (List Char)
  | [] => []
  | p :: ps => seqExt ps ++ (if allNullable ps then p.ext else [])
def altExt : List Part → List (List Char)
  | [] => []
  | p :: ps => p.ext ++ altExt ps
end

/-- No name is in both lists. -/
def disjoint (a b : List (List Char)) : Bool := a.all fun n => !b.contains n

mutual
/-- The first child decides, at once, whether the particle is there. -/
def Part.solid : Part → Bool
  | .node t _ => !t.optional
  | .list k t items => t = .one && (if k = .seq then headSolid items else altSolid items)
def headSolid : List Part → Bool
  | [] => false
  | p :: _ => p.solid
def altSolid : List Part → Bool
  | [] => true
  | p :: ps => p.solid && altSolid ps
end

/-- The alternatives start with different names. -/
def altApart : List Part → Bool
  | [] => true
  | p :: ps => disjoint p.first (altFirst ps) && altApart ps

mutual
/-- All the words of the particle, nested in another list, are matched. -/
def Part.total (fin : Bool) : Part → Bool
  | .node _ _ => true
  | .list k t items =>
    (k ≠ .undef || items.length = 1) &&
    if k = .seq then
      (t ≠ .opt || fin) && seqTotal (fin && (t = .one || t = .opt)) items &&
      (t = .one || t = .opt || (headSolid items && disjoint (seqExt items) (seqFirst items)))
    else
      altTotal (fin && (t = .one || t = .opt)) items && altSolid items && altApart items &&
      (t = .one || t = .opt || disjoint (altExt items) (altFirst items))
def seqTotal (fin : Bool) : List Part → Bool
  | [] => true
  | p :: ps =>
    p.total (fin && ps.isEmpty) && (!p.nullable || p.times.optional) && disjoint p.ext (seqFirst ps) &&
      seqTotal fin ps
def altTotal (fin : Bool) : List Part → Bool
  | [] => true
  | p :: ps => p.total fin && altTotal fin ps
end

/-- The content models that accept all their words (`C35_words_accepted_partial`); `top`: for the root
element of the document. -/
def Content.total (top : Bool) (l : Content) : Bool :=
  (l.kind ≠ .undef || l.items.length = 1) &&
  if l.kind = .seq then
    l.times ≠ .opt && (l.times ≠ .some1 || !top) && seqTotal (l.times = .one) l.items &&
    (l.times = .one || (headSolid l.items && disjoint (seqExt l.items) (seqFirst l.items)))
  else
    altTotal (l.times = .one || l.times = .opt) l.items && altSolid l.items && altApart l.items &&
    (l.times = .one || l.times = .opt || disjoint (altExt l.items) (altFirst l.items))

/-! ### Models for which the matcher ends -/

/-- The particle is a name. -/
def Part.isNode : Part → Bool
  | .node _ _ => true
  | .list _ _ _ => false

mutual
/-- A match of the particle consumes a child. -/
def Part.firm : Part → Bool
  | .node t _ => !t.optional
  | .list k t items =>
    t = .one && (if k = .seq then headFirm items else altFirm items)
def headFirm : List Part → Bool
  | [] => false
  | p :: _ => p.firm
def altFirm : List Part → Bool
  | [] => true
  | p :: ps => (p.isNode || p.firm) && altFirm ps
end

mutual
/-- What is under `*` or `+` consumes a child whenever it is matched. -/
def Part.ends : Part → Bool
  | .node _ _ => true
  | .list k t items =>
    allEnd items && (t = .one || t = .opt || (if k = .seq then headFirm items else altFirm items))
def allEnd : List Part → Bool
  | [] => true
  | p :: ps => p.ends && allEnd ps
end

/-- The content models that the matcher never loops on (`C36_children_partial`). -/
def Content.ends (l : Content) : Bool :=
  allEnd l.items && (l.times = .one || l.times = .opt || (if l.kind = .seq then headFirm l.items else altFirm l.items))

end Axl.Dtd
