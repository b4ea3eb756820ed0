/-
Model of the content matcher of src/axl_dtd.c: how the children of a node are compared with the content
model of its element declaration.

Simplifications: the children of the parent are the list `w` of their names, in order
(`axl_node_get_child_nth` and `axl_node_get_child_num` read the children; C24 and C25 for the links);
an `axlList` of items is a list (C01); error messages are not built, so the argument `try_match`,
which only decides about them, is left out.
-/

namespace Axl.Dtd

/-- `AxlDtdTimes` (src/axl_decl.h:436-464) without `DTD_TIMES_UNKNOWN`: the parser gives one of these
to every item and to every list but one that is not closed (`ElementType.unclosed`). -/
inductive Times where
  | one   -- ONE_AND_ONLY_ONE
  | opt   -- ZERO_OR_ONE
  | many  -- ZERO_OR_MANY
  | some1 -- ONE_OR_MANY
deriving DecidableEq, Repr

/-- `AxlDtdNestedType` (src/axl_decl.h:333-352). -/
inductive Kind where
  | undef
  | choice
  | seq
deriving DecidableEq, Repr

/-- `struct _axlDtdElementListNode` (src/axl_dtd.c:44-48): an item that names an element, with its
repetition, or a nested `struct _axlDtdElementList` (src/axl_dtd.c:50-83).  The field `times` of an item
that holds a list is never set and is not represented. -/
inductive Part where
  | node (times : Times) (name : List Char)
  | list (kind : Kind) (times : Times) (items : List Part)

/-- `struct _axlDtdElementList` (src/axl_dtd.c:50-83): the content model of an element. -/
structure Content where
  kind  : Kind
  times : Times
  items : List Part

/-- `axl_dtd_item_node_get_repeat` (src/axl_dtd.c:3856-3876). -/
def Part.times : Part → Times
  | .node t _ => t
  | .list _ t _ => t

/-- The check `times != ZERO_OR_MANY && times != ZERO_OR_ONE` (src/axl_dtd.c:2105-2106), negated. -/
def Times.optional : Times → Bool
  | .opt => true
  | .many => true
  | _ => false

/-- How an item of a sequence ends: go on with the next item at a position, or return. -/
inductive Step where
  | next (pos : Nat)
  | stop (answer : Bool) (pos : Nat)
deriving DecidableEq, Repr

/-- The loop over the items that are left when the children have ended (src/axl_dtd.c:2103-2118).
`times` is not read again for each item. -/
def restOptional (t : Times) : List Part → Bool
  | [] => true
  | _ :: rest => if t.optional then restOptional t rest else false

/-- The children have ended at the item `it` (src/axl_dtd.c:2080-2139); `matched` is
`one_matched && status`. -/
def atEnd (it : Part) (rest : List Part) (matched : Bool) (pos : Nat) : Step :=
  if it.times = .some1 && matched then
    match rest with
    | [] => .stop true pos
    | _ => .next pos
  else .stop (restOptional it.times (it :: rest)) pos

/-- The inner loop of `__axl_dtd_validate_sequence` for an item that names an element
(src/axl_dtd.c:2066-2264); the list is the children from `child_pos` on. -/
def nodeLoop (t : Times) (n : List Char) (rest : List Part) : List (List Char) → Nat → Bool → Step
  | [], pos, matched => atEnd (.node t n) rest matched pos
  | c :: w, pos, matched =>
    match t with
    | .one => if c = n then .next (pos + 1) else .stop false pos
    | .some1 =>
      if c = n then nodeLoop t n rest w (pos + 1) true
      else if matched then .next pos
      else .stop false pos
    | .opt => if c = n then .next (pos + 1) else .next pos
    | .many => if c = n then nodeLoop t n rest w (pos + 1) true else .next pos

/-- The `repeat_for_node` loop of `__axl_dtd_validate_choice` after a first match
(src/axl_dtd.c:2343-2387): the position after the children named `n`. -/
def manyLoop (n : List Char) : List (List Char) → Nat → Nat
  | [], pos => pos
  | c :: w, pos => if c = n then manyLoop n w (pos + 1) else pos

/-- The loops of `__axl_dtd_validate_item_list` for a sequence under `*` or `+`
(src/axl_dtd.c:2521-2539, 2562-2591); `none`: not ended after the steps given. -/
def repeatSeq (body : Nat → Option (Bool × Nat)) : Nat → Nat → Option (Bool × Nat)
  | 0, _ => none
  | fuel + 1, pos =>
    match body pos with
    | none => none
    | some (true, p) => repeatSeq body fuel p
    | some (false, p) => if pos ≠ p then some (false, p) else some (true, p)

/-- The loops of `__axl_dtd_validate_item_list` for a choice under `*` or `+`
(src/axl_dtd.c:2546-2549, 2598-2610); `none`: not ended after the steps given. -/
def repeatChoice (body : Nat → Option (Bool × Nat)) : Nat → Nat → Option (Bool × Nat)
  | 0, _ => none
  | fuel + 1, pos =>
    match body pos with
    | none => none
    | some (true, p) => repeatChoice body fuel p
    | some (false, p) => some (true, p)

/-- The switch of `__axl_dtd_validate_item_list` (src/axl_dtd.c:2448-2619), given what
`__axl_dtd_validate_sequence` and `__axl_dtd_validate_choice` answer for the list. -/
def itemListTimes (fuel : Nat) (k : Kind) (t : Times) (seq choice : Nat → Option (Bool × Nat)) (pos : Nat) :
    Option (Bool × Nat) :=
  match t with
  | .one => if k = .seq then seq pos else choice pos
  | .opt =>
    if k = .seq then seq pos
    else
      match choice pos with
      | none => none
      | some (_, p) => some (true, p)
  | .many => if k = .seq then repeatSeq seq fuel pos else repeatChoice choice fuel pos
  | .some1 => if k = .seq then repeatSeq seq fuel pos else repeatChoice choice fuel pos

/-- `__axl_dtd_validate_item_list` (src/axl_dtd.c:2433-2642), for a parent with `num` children. -/
def itemList (fuel num : Nat) (k : Kind) (t : Times) (top : Bool) (seq choice : Nat → Option (Bool × Nat)) (pos : Nat) :
    Option (Bool × Nat) :=
  match itemListTimes fuel k t seq choice pos with
  | none => none
  | some (false, p) => some (false, p)
  | some (true, p) => if top && k = .choice && p + 1 < num then some (false, p) else some (true, p)

/-- `__axl_dtd_validate_choice` (src/axl_dtd.c:2305-2409): `node` is read before the loop over the
alternatives, given here as a function of its name and the position. -/
def choiceStart (w : List (List Char)) (loop : List Char → Nat → Option (Bool × Nat)) (pos : Nat) : Option (Bool × Nat) :=
  match w[pos]? with
  | none => some (false, pos)
  | some c => loop c pos

mutual

/-- The inner loop of `__axl_dtd_validate_sequence` for an item (src/axl_dtd.c:2066-2264), `rest` being the
items after it: for a nested list, the call of `__axl_dtd_validate_item_list` (src/axl_dtd.c:2142-2171). -/
def seqItem (fuel : Nat) (w : List (List Char)) : Part → List Part → Nat → Option Step
  | .node t n, rest, pos => some (nodeLoop t n rest (w.drop pos) pos false)
  | .list k t items, rest, pos =>
    if w.length ≤ pos then some (atEnd (.list k t items) rest false pos)
    else
      match itemList fuel w.length k t false (seqLoop fuel w items t false) (choiceStart w (choiceLoop fuel w items)) pos with
      | none => none
      | some (false, p) => some (.stop false p)
      | some (true, p) => some (.next p)
termination_by structural x => x

/-- The loop of `__axl_dtd_validate_sequence` (src/axl_dtd.c:2056-2298) from an item on; `lt` is the
repetition of the list. -/
def seqLoop (fuel : Nat) (w : List (List Char)) : List Part → Times → Bool → Nat → Option (Bool × Nat)
  | [], lt, top, pos =>
    if (lt = .some1 || lt = .one) && top && pos < w.length then some (false, pos) else some (true, pos)
  | it :: rest, lt, top, pos =>
    match seqItem fuel w it rest pos with
    | none => none
    | some (.next p) => seqLoop fuel w rest lt top p
    | some (.stop b p) => some (b, p)
termination_by structural x => x

/-- One alternative of `__axl_dtd_validate_choice` (src/axl_dtd.c:2336-2397); `c` is the name of `node`, which
is read before the loop. -/
def choiceItem (fuel : Nat) (w : List (List Char)) : Part → List Char → Nat → Option (Bool × Nat)
  | .node t n, c, pos =>
    if c = n then
      match t with
      | .one => some (true, pos + 1)
      | .opt => some (true, pos + 1)
      | .many => some (true, manyLoop n (w.drop (pos + 1)) (pos + 1))
      | .some1 => some (true, manyLoop n (w.drop (pos + 1)) (pos + 1))
    else some (false, pos)
  | .list k t items, _, pos =>
    itemList fuel w.length k t false (seqLoop fuel w items t false) (choiceStart w (choiceLoop fuel w items)) pos
termination_by structural x => x

/-- The loop of `__axl_dtd_validate_choice` (src/axl_dtd.c:2334-2409). -/
def choiceLoop (fuel : Nat) (w : List (List Char)) : List Part → List Char → Nat → Option (Bool × Nat)
  | [], _, pos => some (false, pos)
  | it :: rest, c, pos =>
    match choiceItem fuel w it c pos with
    | none => none
    | some (true, p) => some (true, p)
    | some (false, p) => choiceLoop fuel w rest c p
termination_by structural x => x

end

/-- `__axl_dtd_parse_element_get_compulsory_num` (src/axl_dtd.c:1093-1142).  The `times` of an item that
holds a list is not set, so nested lists are not counted. -/
def compulsoryLoop (k : Kind) : List Part → Nat
  | [] => 0
  | .node t _ :: rest =>
    if t = .some1 || t = .one then
      if k = .choice then 1 else compulsoryLoop k rest + 1
    else compulsoryLoop k rest
  | .list _ _ _ :: rest => compulsoryLoop k rest

/-- `__axl_dtd_parse_element_get_compulsory_num` (src/axl_dtd.c:1093-1142). -/
def compulsoryNum (l : Content) : Nat :=
  if l.times = .one || l.times = .some1 then compulsoryLoop l.kind l.items else 0

/-- `__axl_dtd_validate_element_type_children` (src/axl_dtd.c:2650-2695); `minimum_match` is
`compulsoryNum` (src/axl_dtd.c:1254). -/
def children (fuel : Nat) (l : Content) (top : Bool) (w : List (List Char)) : Option Bool :=
  if w.length < compulsoryNum l then some false
  else
    match itemList fuel w.length l.kind l.times top (seqLoop fuel w l.items l.times top) (choiceStart w (choiceLoop fuel w l.items)) 0 with
    | none => none
    | some (false, _) => some false
    | some (true, p) => some (!(p < w.length))

end Axl.Dtd
