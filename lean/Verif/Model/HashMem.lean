/-
Model of src/axl_hash.c with the nodes in memory: a node is a cell in a piece of the factory of the table, with a pointer to
the next one, and a slot of the table is a pointer.

`none`: undefined behaviour (a pointer to a piece that is not a node in use is followed, an access out of the table, a write
out of the factory) or a walk that is not over after `n` steps, `n` being a parameter of the functions that walk.
Simplifications: allocation never fails; `items` and `hash_size` do not overflow; a node that is given back to the factory is
no longer a node (its content stays there in the code); the cursor has its table inside.
-/
import Verif.Model.Hash
import Verif.Model.Factory

namespace Axl
variable {κ δ φ : Type}

/-- `struct _axlHashNode` (src/axl_hash.c:56-67). -/
structure MNode (κ δ φ : Type) where
  node : HashNode κ δ φ
  next : Option Piece

/-- `struct _axlHash` (src/axl_hash.c:69-90), with the memory of its nodes.  `junk`: what a piece has in the place of `next`
when it is handed out. -/
structure MHash (κ δ φ : Type) where
  hash     : κ → Nat
  equal    : κ → κ → Bool
  table    : List (Option Piece)
  factory  : Factory
  items    : Nat
  hashSize : Nat
  step     : Nat
  mem      : Piece → Option (MNode κ δ φ)
  junk     : Piece → Option Piece
  log      : List (DestroyCall κ δ φ)

namespace MHash

/-- The size of a node in bytes: five pointers. -/
def nodeSize : Nat := 40

/-- `axl_hash_new_full` (src/axl_hash.c:336-362). -/
def newFull (hash : κ → Nat) (equal : κ → κ → Bool) (step : Nat) (junk : Piece → Option Piece) : Option (MHash κ δ φ) := do
  let factory ← Factory.create nodeSize
  some ⟨hash, equal, [], factory, 0, 0, step, fun _ => none, junk, []⟩

/-- `hash->hash (key) % hash->hash_size`; a modulus by 0 is undefined behaviour. -/
def pos (m : MHash κ δ φ) (k : κ) : Option Nat := if m.hashSize = 0 then none else some (m.hash k % m.hashSize)

/-- Writing a node. -/
def write (m : MHash κ δ φ) (p : Piece) (c : Option (MNode κ δ φ)) : MHash κ δ φ :=
  { m with mem := fun q => if q = p then c else m.mem q }

/-- `node->next = q`. -/
def setNext (m : MHash κ δ φ) (p : Piece) (q : Option Piece) : Option (MHash κ δ φ) := do
  let c ← m.mem p
  some (m.write p (some { c with next := q }))

/-- The walk of `__axl_hash_internal_lookup` from a node (src/axl_hash.c:238-249). -/
def lookupFrom (m : MHash κ δ φ) (k : κ) : Nat → Piece → Option (Option Piece)
  | 0, _ => none
  | n + 1, p => do
    let c ← m.mem p
    if m.equal c.node.key k then some (some p)
    else
      match c.next with
      | none => some none
      | some q => lookupFrom m k n q

/-- `__axl_hash_internal_lookup` (src/axl_hash.c:223-253). -/
def lookup (n : Nat) (m : MHash κ δ φ) (k : κ) : Option (Option Piece) :=
  if m.hashSize = 0 then some none
  else do
    let i ← m.pos k
    let p ← m.table[i]?
    match p with
    | none => some none
    | some p => m.lookupFrom k n p

/-- `__axl_hash_create_node` (src/axl_hash.c:399-406): `next` has what was there. -/
def createNode (m : MHash κ δ φ) (x : HashNode κ δ φ) : Option (Piece × MHash κ δ φ) := do
  let (p, f) ← m.factory.get
  some (p, { m with factory := f }.write p (some ⟨x, m.junk p⟩))

/-- `__axl_hash_insert_node` (src/axl_hash.c:413-418). -/
def insertNode (m : MHash κ δ φ) (k : κ) (p : Piece) (increase : Bool) : Option (MHash κ δ φ) := do
  let i ← m.pos k
  let old ← m.table[i]?
  let m ← m.setNext p old
  some { m with table := m.table.set i (some p), items := if increase then m.items + 1 else m.items }

/-- `while (aux->next != NULL) aux = aux->next` (src/axl_hash.c:507-510, 519-522). -/
def lastOf (m : MHash κ δ φ) : Nat → Piece → Option Piece
  | 0, _ => none
  | n + 1, p => do
    let c ← m.mem p
    match c.next with
    | none => some p
    | some q => lastOf m n q

/-- The loop that links all the chains (src/axl_hash.c:493-530), on the slots left: `node` and `aux`. -/
def link (n : Nat) : MHash κ δ φ → List (Option Piece) → Option Piece → Option Piece → Option (MHash κ δ φ × Option Piece)
  | m, [], node, _ => some (m, node)
  | m, none :: ts, node, aux => link n m ts node aux
  | m, some q :: ts, none, _ => do
    let aux ← m.lastOf n q
    link n m ts (some q) (some aux)
  | m, some q :: ts, some node, aux => do
    let a ← aux
    let m ← m.setNext a (some q)
    let aux ← m.lastOf n a
    link n m ts (some node) (some aux)

/-- The loop that inserts the nodes again (src/axl_hash.c:549-559). -/
def rehash : Nat → MHash κ δ φ → Option Piece → Option (MHash κ δ φ)
  | _, m, none => some m
  | 0, _, some _ => none
  | n + 1, m, some p => do
    let c ← m.mem p
    let m ← m.insertNode c.node.key p false
    rehash n m c.next

/-- The resize part of `axl_hash_insert_full` (src/axl_hash.c:485-563). -/
def grow (n : Nat) (m : MHash κ δ φ) : Option (MHash κ δ φ) := do
  let (m, node) ← link n m m.table none none
  let m := { m with hashSize := m.hashSize + m.step, table := List.replicate (m.hashSize + m.step) none }
  rehash n m node

/-- `axl_hash_insert_full` (src/axl_hash.c:444-595). -/
def insertFull (n : Nat) (m : MHash κ δ φ) (k : κ) (kd : Option φ) (d : Option δ) (dd : Option φ) : Option (MHash κ δ φ) :=
  let new : HashNode κ δ φ := ⟨k, kd, d, dd⟩
  if m.hashSize = 0 then do
    let (p, m) ← { m with table := List.replicate m.step none, hashSize := m.step }.createNode new
    m.insertNode k p true
  else do
    let node ← m.lookup n k
    match node with
    | none => do
      let m ← if m.hashSize = m.items then m.grow n else some m
      let (p, m) ← m.createNode new
      m.insertNode k p true
    | some p => do
      let c ← m.mem p
      some { m.write p (some { c with node := new }) with log := m.log ++ AxlHash.destroyNode c.node }

/-- The walk of `__axl_hash_remove_common` after the first node (src/axl_hash.c:695-712): the node found, unlinked. -/
def unlinkFrom : Nat → MHash κ δ φ → κ → Piece → Option (Option (Piece × MHash κ δ φ))
  | 0, _, _, _ => none
  | n + 1, m, k, p => do
    let c ← m.mem p
    match c.next with
    | none => some none
    | some q => do
      let c' ← m.mem q
      if m.equal c'.node.key k then do
        let m ← m.setNext p c'.next
        some (some (q, m))
      else unlinkFrom n m k q

/-- The label `remove_element` (src/axl_hash.c:649-692), for a node that is not in its chain. -/
def removeElement (m : MHash κ δ φ) (p : Piece) (remove defer : Bool) : Option (Bool × AxlHash.Deferred κ δ φ × MHash κ δ φ) := do
  let c ← m.mem p
  let f ← m.factory.release p
  let m := { m with items := m.items - 1, factory := f }.write p none
  if defer then some (true, ⟨some c.node.key, c.node.keyDestroy, c.node.data, c.node.dataDestroy⟩, m)
  else some (true, ⟨none, none, none, none⟩, { m with log := m.log ++ (if remove then AxlHash.destroyNode c.node else []) })

/-- `__axl_hash_remove_common` (src/axl_hash.c:604-716). -/
def removeCommon (n : Nat) (m : MHash κ δ φ) (k : κ) (remove defer : Bool) :
    Option (Bool × AxlHash.Deferred κ δ φ × MHash κ δ φ) :=
  if m.hashSize = 0 then some (false, ⟨none, none, none, none⟩, m)
  else do
    let i ← m.pos k
    let p ← m.table[i]?
    match p with
    | none => some (false, ⟨none, none, none, none⟩, m)
    | some p => do
      let c ← m.mem p
      if m.equal c.node.key k then removeElement { m with table := m.table.set i c.next } p remove defer
      else do
        let r ← unlinkFrom n m k p
        match r with
        | none => some (false, ⟨none, none, none, none⟩, m)
        | some (q, m) => removeElement m q remove defer

/-- `axl_hash_remove` (src/axl_hash.c:737-743). -/
def remove (n : Nat) (m : MHash κ δ φ) (k : κ) : Option (Bool × MHash κ δ φ) := do
  let (r, _, m) ← m.removeCommon n k true false
  some (r, m)

/-- `axl_hash_delete` (src/axl_hash.c:846-852). -/
def delete (n : Nat) (m : MHash κ δ φ) (k : κ) : Option (Bool × MHash κ δ φ) := do
  let (r, _, m) ← m.removeCommon n k false false
  some (r, m)

/-- `axl_hash_remove_deferred` (src/axl_hash.c:790-800). -/
def removeDeferred (n : Nat) (m : MHash κ δ φ) (k : κ) : Option (Bool × AxlHash.Deferred κ δ φ × MHash κ δ φ) :=
  m.removeCommon n k true true

/-- `axl_hash_get` (src/axl_hash.c:866-884). -/
def get (n : Nat) (m : MHash κ δ φ) (k : κ) : Option (Option δ) :=
  if m.items = 0 then some none
  else do
    let p ← m.lookup n k
    match p with
    | none => some none
    | some p => do
      let c ← m.mem p
      some c.node.data

/-- `axl_hash_exists` (src/axl_hash.c:1128-1133). -/
def «exists» (n : Nat) (m : MHash κ δ φ) (k : κ) : Option Bool := do
  let p ← m.lookup n k
  some p.isSome

/-- The inner loop of `__axl_hash_foreach` (src/axl_hash.c:917-952), from a node. -/
def foreachFrom (m : MHash κ δ φ) (stop : κ → Option δ → Bool) : Nat → Piece → Option (Bool × List (κ × Option δ))
  | 0, _ => none
  | n + 1, p => do
    let c ← m.mem p
    if stop c.node.key c.node.data then some (true, [(c.node.key, c.node.data)])
    else
      match c.next with
      | none => some (false, [(c.node.key, c.node.data)])
      | some q => do
        let (b, l) ← foreachFrom m stop n q
        some (b, (c.node.key, c.node.data) :: l)

/-- The outer loop of `__axl_hash_foreach` (src/axl_hash.c:910-959), on the slots left. -/
def foreachTable (n : Nat) (m : MHash κ δ φ) (stop : κ → Option δ → Bool) : List (Option Piece) → Option (List (κ × Option δ))
  | [] => some []
  | none :: ts => foreachTable n m stop ts
  | some p :: ts => do
    let (b, l) ← m.foreachFrom stop n p
    if b then some l
    else do
      let r ← foreachTable n m stop ts
      some (l ++ r)

/-- `axl_hash_foreach`, and the variants with more user pointers (src/axl_hash.c:892-1104). -/
def foreach (n : Nat) (m : MHash κ δ φ) (stop : κ → Option δ → Bool) : Option (List (κ × Option δ)) :=
  foreachTable n m stop (m.table.take m.hashSize)

/-- The inner loop of `axl_hash_free` (src/axl_hash.c:1492-1501), from a node: the destroy calls. -/
def freeFrom [NullKey κ] (m : MHash κ δ φ) : Nat → Piece → Option (List (DestroyCall κ δ φ))
  | 0, _ => none
  | n + 1, p => do
    let c ← m.mem p
    let calls := AxlHash.cleanupCalls c.node.key c.node.keyDestroy c.node.data c.node.dataDestroy
    match c.next with
    | none => some calls
    | some q => do
      let r ← freeFrom m n q
      some (calls ++ r)

/-- The outer loop of `axl_hash_free` (src/axl_hash.c:1488-1506), on the slots left. -/
def freeTable [NullKey κ] (n : Nat) (m : MHash κ δ φ) : List (Option Piece) → Option (List (DestroyCall κ δ φ))
  | [] => some []
  | none :: ts => freeTable n m ts
  | some p :: ts => do
    let l ← m.freeFrom n p
    let r ← freeTable n m ts
    some (l ++ r)

/-- `axl_hash_free` (src/axl_hash.c:1474-1519): the destroy calls, with those made before. -/
def free [NullKey κ] (n : Nat) (m : MHash κ δ φ) : Option (List (DestroyCall κ δ φ)) := do
  let l ← freeTable n m (m.table.take m.hashSize)
  some (m.log ++ l)

end MHash

/-- `struct _axlHashCursor` (src/axl_hash.c:95-105). -/
structure MCursor (κ δ φ : Type) where
  hash  : MHash κ δ φ
  node  : Option Piece
  index : Nat

namespace MCursor

/-- The search of the first slot that is not empty, from one (src/axl_hash.c:1556-1567, 1756-1767, 1854-1864): its node, and
the index reached.  The slots left are `hash_size - index`. -/
def search (c : MCursor κ δ φ) : Nat → Nat → Option (Option Piece × Nat)
  | 0, i => some (none, i)
  | n + 1, i => do
    let p ← c.hash.table[i]?
    match p with
    | some p => some (some p, i)
    | none => search c n (i + 1)

/-- `axl_hash_cursor_first` (src/axl_hash.c:1551-1567, 1591-1593, 1686-1694): if nothing is found `cursor->node` keeps its
value. -/
def first (c : MCursor κ δ φ) : Option (MCursor κ δ φ) := do
  let (p, i) ← c.search c.hash.hashSize 0
  match p with
  | some p => some { c with node := some p, index := i }
  | none => some { c with index := 0 }

/-- `axl_hash_cursor_new` (src/axl_hash.c:1658-1678). -/
def new (m : MHash κ δ φ) : Option (MCursor κ δ φ) := first ⟨m, none, 0⟩

/-- `axl_hash_cursor_next` (src/axl_hash.c:1721-1771). -/
def next (c : MCursor κ δ φ) : Option (MCursor κ δ φ) :=
  match c.node with
  | none => some c
  | some p => do
    let cell ← c.hash.mem p
    match cell.next with
    | some q => some { c with node := some q }
    | none => do
      let (p, i) ← c.search (c.hash.hashSize - (c.index + 1)) (c.index + 1)
      some { c with node := p, index := i }

/-- `axl_hash_cursor_has_next` (src/axl_hash.c:1783-1806). -/
def hasNext (c : MCursor κ δ φ) : Option Bool := do
  let more ← match c.node with
    | none => some false
    | some p => do
      let cell ← c.hash.mem p
      some cell.next.isSome
  if more then some true
  else do
    let (p, _) ← c.search (c.hash.hashSize - (c.index + 1)) (c.index + 1)
    some p.isSome

/-- `axl_hash_cursor_has_item` (src/axl_hash.c:1817-1823). -/
def hasItem (c : MCursor κ δ φ) : Bool := c.node.isSome

/-- `axl_hash_cursor_get_key` (src/axl_hash.c:1895-1905). -/
def getKey (c : MCursor κ δ φ) : Option (Option κ) :=
  match c.node with
  | none => some none
  | some p => do
    let cell ← c.hash.mem p
    some (some cell.node.key)

/-- `axl_hash_cursor_get_value` (src/axl_hash.c:1877-1886). -/
def getValue (c : MCursor κ δ φ) : Option (Option δ) :=
  match c.node with
  | none => some none
  | some p => do
    let cell ← c.hash.mem p
    some cell.node.data

/-- `axl_hash_cursor_remove` (src/axl_hash.c:1836-1869). -/
def remove (n : Nat) (c : MCursor κ δ φ) : Option (MCursor κ δ φ) :=
  match c.node with
  | none => some c
  | some p => do
    let cell ← c.hash.mem p
    let (_, m) ← c.hash.remove n cell.node.key
    match cell.next with
    | some q => some { c with hash := m, node := some q }
    | none => do
      let (p, i) ← MCursor.search { c with hash := m } (m.hashSize - c.index) c.index
      some { c with hash := m, node := p, index := i }

end MCursor
end Axl
