/-
Model of src/axl_hash.c.

Data pointers are `Option _`, `none` being NULL.  Keys are of any type `κ`, with the NULL key (if
any) told by `NullKey.isNull`.
Simplifications, for the whole file: a collision chain (nodes linked by `next`) is the list of its
nodes, and a pointer to a node is the part of the chain that starts at it (`[]` is NULL); the pool
that nodes come from is modelled in `Verif.Model.Factory`; allocation never fails; `items` and
`hash_size` do not overflow.
-/
namespace Axl

/-- Which key is the NULL pointer. -/
class NullKey (κ : Type) where
  isNull : κ → Bool

/-- Strings that are not NULL. -/
instance : NullKey (List Char) := ⟨fun _ => false⟩
/-- Pointers that may be NULL. -/
instance {α : Type} : NullKey (Option α) := ⟨Option.isNone⟩
/-- Integers stored in pointers (`INT_TO_PTR`): 0 is NULL. -/
instance : NullKey Int := ⟨fun k => k == 0⟩

/-- A call to a destroy function stored with a pair (src/axl_hash.c:58-63). -/
inductive DestroyCall (κ δ φ : Type) where
  | key  (f : φ) (k : κ)
  | data (f : φ) (d : Option δ)
deriving DecidableEq, Repr

/-- `struct _axlHashNode` without its link (src/axl_hash.c:56-67). -/
structure HashNode (κ δ φ : Type) where
  key         : κ
  keyDestroy  : Option φ
  data        : Option δ
  dataDestroy : Option φ
deriving DecidableEq, Repr

/-- `struct _axlHash` (src/axl_hash.c:69-90).  `equal a b = true` says the user function answers 0.
`log`: destroy functions called so far, oldest first.  `table = []` is the NULL table. -/
structure AxlHash (κ δ φ : Type) where
  hash     : κ → Nat
  equal    : κ → κ → Bool
  table    : List (List (HashNode κ δ φ))
  items    : Nat
  hashSize : Nat
  step     : Nat
  log      : List (DestroyCall κ δ φ)

/-- `axl_hash_string` (src/axl_hash.c:114-137): 32 bit arithmetic, `char` is signed; shifting into
the sign bit wraps and `>>` on a negative int is arithmetic, as gcc does. -/
def hashStringStep (h : BitVec 32) (c : Char) : BitVec 32 :=
  let h := (h <<< 4) + (BitVec.ofNat 8 c.toNat).signExtend 32
  let g := h &&& 0xF0000000#32
  if g ≠ 0#32 then (h ^^^ (g.sshiftRight 24)) ^^^ g else h

/-- `axl_hash_string` (src/axl_hash.c:114-137). -/
def hashString : Option (List Char) → Nat
  | none => 0
  | some s => (s.foldl hashStringStep 0#32).toNat

/-- The loop and final check of `axl_hash_equal_string` (src/axl_hash.c:163-178): true is 0. -/
def hashEqualStringLoop : List Char → List Char → Bool
  | a :: s, b :: t => if a ≠ b then false else hashEqualStringLoop s t
  | [], [] => true
  | _, _ => false

/-- `axl_hash_equal_string` (src/axl_hash.c:151-179): true is the answer 0.  The NULL cases answer
`keyb == NULL`, which is 1 (different) for two NULL keys and 0 (equal) for one. -/
def hashEqualString : Option (List Char) → Option (List Char) → Bool
  | none, b => !b.isNone
  | a, none => !a.isNone
  | some a, some b => hashEqualStringLoop a b

/-- `axl_hash_int` (src/axl_hash.c:190-195): the integer in the pointer as unsigned int. -/
def hashInt (k : Int) : Nat := (k % 2 ^ 32).toNat

/-- `axl_hash_equal_int` (src/axl_hash.c:206-211): true is the answer 0. -/
def hashEqualInt (a b : Int) : Bool := a == b

namespace AxlHash
variable {κ δ φ : Type}

/-- `axl_hash_new_full` (src/axl_hash.c:336-362). -/
def newFull (hash : κ → Nat) (equal : κ → κ → Bool) (step : Nat) : AxlHash κ δ φ :=
  ⟨hash, equal, [], 0, 0, step, []⟩

/-- `axl_hash_new` (src/axl_hash.c:312-316). -/
def new (hash : κ → Nat) (equal : κ → κ → Bool) : AxlHash κ δ φ :=
  newFull hash equal 10

/-- `hash->hash (key) % hash->hash_size`; a modulus by 0 is undefined behaviour. -/
def pos (h : AxlHash κ δ φ) (k : κ) : Option Nat :=
  if h.hashSize = 0 then none else some (h.hash k % h.hashSize)

/-- The walk along a chain of `__axl_hash_internal_lookup` (src/axl_hash.c:234-252). -/
def lookupChain (equal : κ → κ → Bool) (k : κ) :
    List (HashNode κ δ φ) → Option (HashNode κ δ φ)
  | [] => none
  | n :: ns => if equal n.key k then some n else lookupChain equal k ns

/-- `__axl_hash_internal_lookup` (src/axl_hash.c:223-253). -/
def lookup (h : AxlHash κ δ φ) (k : κ) : Option (Option (HashNode κ δ φ)) :=
  if h.hashSize = 0 then some none
  else do
    let p ← h.pos k
    let chain ← h.table[p]?
    some (lookupChain h.equal k chain)

/-- `__axl_hash_insert_node` (src/axl_hash.c:413-418). -/
def insertNode (h : AxlHash κ δ φ) (k : κ) (n : HashNode κ δ φ) (increase : Bool) :
    Option (AxlHash κ δ φ) := do
  let p ← h.pos k
  let chain ← h.table[p]?
  some { h with
    table := h.table.set p (n :: chain)
    items := if increase then h.items + 1 else h.items }

/-- Rehash every node of the extracted list (src/axl_hash.c:549-559). -/
def rehash (h : AxlHash κ δ φ) : List (HashNode κ δ φ) → Option (AxlHash κ δ φ)
  | [] => some h
  | n :: ns => do let h ← h.insertNode n.key n false; rehash h ns

/-- The resize part of `axl_hash_insert_full` (src/axl_hash.c:489-563): all chains are linked into
one list (src/axl_hash.c:495-530), the table is enlarged and cleared, the nodes are inserted again. -/
def grow (h : AxlHash κ δ φ) : Option (AxlHash κ δ φ) :=
  let nodes := h.table.flatten
  let size := h.hashSize + h.step
  rehash { h with hashSize := size, table := List.replicate size [] } nodes

/-- The destroy calls of src/axl_hash.c:579-584 and 678-683: nothing checked but the functions. -/
def destroyNode (n : HashNode κ δ φ) : List (DestroyCall κ δ φ) :=
  (match n.keyDestroy with | some f => [.key f n.key] | none => []) ++
  (match n.dataDestroy with | some f => [.data f n.data] | none => [])

/-- Writing through the pointer that the lookup gave: the first node of the chain with an equal
key gets the new content (src/axl_hash.c:586-590). -/
def replaceChain (equal : κ → κ → Bool) (k : κ) (new : HashNode κ δ φ) :
    List (HashNode κ δ φ) → List (HashNode κ δ φ)
  | [] => []
  | n :: ns => if equal n.key k then new :: ns else n :: replaceChain equal k new ns

/-- `axl_hash_insert_full` (src/axl_hash.c:444-595). -/
def insertFull (h : AxlHash κ δ φ) (k : κ) (kd : Option φ) (d : Option δ) (dd : Option φ) :
    Option (AxlHash κ δ φ) :=
  let new : HashNode κ δ φ := ⟨k, kd, d, dd⟩
  if h.hashSize = 0 then
    insertNode { h with table := List.replicate h.step [], hashSize := h.step } k new true
  else do
    let node ← h.lookup k
    match node with
    | none => do
      let h ← if h.hashSize = h.items then h.grow else some h
      h.insertNode k new true
    | some n => do
      let p ← h.pos k
      let chain ← h.table[p]?
      some { h with
        table := h.table.set p (replaceChain h.equal k new chain)
        log := h.log ++ destroyNode n }

/-- `axl_hash_insert` (src/axl_hash.c:385-394). -/
def insert (h : AxlHash κ δ φ) (k : κ) (d : Option δ) : Option (AxlHash κ δ φ) :=
  h.insertFull k none d none

/-- The search and unlinking of `__axl_hash_remove_common` (src/axl_hash.c:643-647, 695-712): the
node found and the chain without it. -/
def unlinkChain (equal : κ → κ → Bool) (k : κ) :
    List (HashNode κ δ φ) → Option (HashNode κ δ φ × List (HashNode κ δ φ))
  | [] => none
  | n :: ns =>
    if equal n.key k then some (n, ns)
    else match unlinkChain equal k ns with
      | none => none
      | some (m, ns) => some (m, n :: ns)

/-- What `axl_hash_remove_deferred` gives back to the caller (src/axl_hash.c:654-674). -/
structure Deferred (κ δ φ : Type) where
  key         : Option κ
  keyDestroy  : Option φ
  data        : Option δ
  dataDestroy : Option φ

/-- `__axl_hash_remove_common` (src/axl_hash.c:604-716).  The references where the caller of the
deferred variant wants the content are all given. -/
def removeCommon (h : AxlHash κ δ φ) (k : κ) (remove defer : Bool) :
    Option (Bool × Deferred κ δ φ × AxlHash κ δ φ) :=
  if h.hashSize = 0 then some (false, ⟨none, none, none, none⟩, h)
  else do
    let p ← h.pos k
    let chain ← h.table[p]?
    match unlinkChain h.equal k chain with
    | none => some (false, ⟨none, none, none, none⟩, h)
    | some (n, chain) =>
      let h := { h with table := h.table.set p chain, items := h.items - 1 }
      if defer then some (true, ⟨some n.key, n.keyDestroy, n.data, n.dataDestroy⟩, h)
      else some (true, ⟨none, none, none, none⟩,
        { h with log := h.log ++ (if remove then destroyNode n else []) })

/-- `axl_hash_remove` (src/axl_hash.c:737-743). -/
def remove (h : AxlHash κ δ φ) (k : κ) : Option (Bool × AxlHash κ δ φ) := do
  let (r, _, h) ← h.removeCommon k true false
  some (r, h)

/-- `axl_hash_delete` (src/axl_hash.c:846-852). -/
def delete (h : AxlHash κ δ φ) (k : κ) : Option (Bool × AxlHash κ δ φ) := do
  let (r, _, h) ← h.removeCommon k false false
  some (r, h)

/-- `axl_hash_remove_deferred` (src/axl_hash.c:790-800). -/
def removeDeferred (h : AxlHash κ δ φ) (k : κ) : Option (Bool × Deferred κ δ φ × AxlHash κ δ φ) :=
  h.removeCommon k true true

/-- `axl_hash_deferred_cleanup` (src/axl_hash.c:810-824), also `__axl_hash_free_data`
(src/axl_hash.c:1449-1466): NULL keys and NULL data are not destroyed. -/
def cleanupCalls [NullKey κ] (k : κ) (kd : Option φ) (d : Option δ) (dd : Option φ) :
    List (DestroyCall κ δ φ) :=
  (match kd with | some f => if NullKey.isNull k then [] else [.key f k] | none => []) ++
  (match d, dd with | some d, some f => [.data f (some d)] | _, _ => [])

/-- `axl_hash_get` (src/axl_hash.c:866-884). -/
def get (h : AxlHash κ δ φ) (k : κ) : Option (Option δ) :=
  if h.items = 0 then some none
  else do
    let n ← h.lookup k
    some (n.bind (·.data))

/-- `axl_hash_exists` (src/axl_hash.c:1128-1133). -/
def «exists» (h : AxlHash κ δ φ) (k : κ) : Option Bool := do
  let n ← h.lookup k
  some n.isSome

/-- The inner loop of `__axl_hash_foreach` (src/axl_hash.c:917-952): whether the function stopped
the iteration, and the nodes notified. -/
def foreachChain (stop : κ → Option δ → Bool) :
    List (HashNode κ δ φ) → Bool × List (HashNode κ δ φ)
  | [] => (false, [])
  | n :: ns =>
    if stop n.key n.data then (true, [n])
    else let r := foreachChain stop ns; (r.1, n :: r.2)

/-- The outer loop of `__axl_hash_foreach` (src/axl_hash.c:910-959). -/
def foreachTable (table : List (List (HashNode κ δ φ))) (stop : κ → Option δ → Bool) (size : Nat) :
    Nat → Nat → Option (List (HashNode κ δ φ))
  | 0, _ => none
  | fuel + 1, it =>
    if it < size then do
      let chain ← table[it]?
      let (stopped, ns) := foreachChain stop chain
      if stopped then some ns
      else do let r ← foreachTable table stop size fuel (it + 1); some (ns ++ r)
    else some []

/-- `axl_hash_foreach`, and the variants with more user pointers (src/axl_hash.c:892-1104): the
pairs given to the function, in order. -/
def foreach (h : AxlHash κ δ φ) (stop : κ → Option δ → Bool) :
    Option (List (κ × Option δ)) := do
  let ns ← foreachTable h.table stop h.hashSize (h.hashSize + 1) 0
  some (ns.map fun n => (n.key, n.data))

/-- `__axl_hash_copy_foreach` (src/axl_hash.c:1138-1176): finds the node of the key again (a miss
dereferences NULL) and inserts its copy in the result. -/
def copyItem (h : AxlHash κ δ φ) (keyCopy : HashNode κ δ φ → κ) (dataCopy : HashNode κ δ φ → Option δ)
    (result : AxlHash κ δ φ) (k : κ) : Option (AxlHash κ δ φ) := do
  let p ← h.pos k
  let chain ← h.table[p]?
  let n ← lookupChain h.equal k chain
  result.insertFull (keyCopy n) n.keyDestroy (dataCopy n) n.dataDestroy

/-- Calling `__axl_hash_copy_foreach` for each key visited. -/
def copyItems (h : AxlHash κ δ φ) (keyCopy : HashNode κ δ φ → κ) (dataCopy : HashNode κ δ φ → Option δ) :
    AxlHash κ δ φ → List (κ) → Option (AxlHash κ δ φ)
  | result, [] => some result
  | result, k :: ks => do let result ← h.copyItem keyCopy dataCopy result k; copyItems h keyCopy dataCopy result ks

/-- `axl_hash_copy` and `axl_hash_copy_full` (src/axl_hash.c:1178-1312).  `replace = some (kd, dd)`:
the full variant, with the destroy functions to install.  The initial step is overwritten at once
(src/axl_hash.c:1203). -/
def copyCommon (h : AxlHash κ δ φ) (keyCopy : HashNode κ δ φ → κ) (dataCopy : HashNode κ δ φ → Option δ)
    (replace : Option (Option φ × Option φ)) : Option (AxlHash κ δ φ) :=
  let result : AxlHash κ δ φ := { newFull h.hash h.equal h.items with step := h.step }
  if h.hashSize = 0 then some result
  else do
    let visited ← foreachTable h.table (fun _ _ => false) h.hashSize (h.hashSize + 1) 0
    let result ← h.copyItems keyCopy dataCopy result (visited.map (·.key))
    match replace with
    | none => some result
    | some (kd, dd) =>
      some { result with
        table := result.table.map fun chain => chain.map fun n => { n with keyDestroy := kd, dataDestroy := dd } }

/-- `axl_hash_free` (src/axl_hash.c:1474-1519): the destroy calls, in order. -/
def free [NullKey κ] (h : AxlHash κ δ φ) : List (DestroyCall κ δ φ) :=
  h.log ++ (h.table.take h.hashSize).flatten.flatMap fun n => cleanupCalls n.key n.keyDestroy n.data n.dataDestroy

end AxlHash

/-- `struct _axlHashCursor` (src/axl_hash.c:95-105). -/
structure HashCursor (κ δ φ : Type) where
  hash  : AxlHash κ δ φ
  node  : List (HashNode κ δ φ)
  index : Int

namespace HashCursor
variable {κ δ φ : Type}

/-- `cursor->hash->table[cursor->index]`: outside of the table is undefined behaviour. -/
def bucket (c : HashCursor κ δ φ) (i : Int) : Option (List (HashNode κ δ φ)) :=
  if i < 0 then none else c.hash.table[i.toNat]?

/-- The forward search of `__axl_hash_cursor_init` (src/axl_hash.c:1556-1567): the node found and
the index reached. -/
def initFirstLoop (c : HashCursor κ δ φ) : Nat → Int → Option (List (HashNode κ δ φ) × Int)
  | 0, _ => none
  | fuel + 1, i =>
    if i < c.hash.hashSize then do
      let node ← c.bucket i
      if node ≠ [] then some (node, i) else initFirstLoop c fuel (i + 1)
    else some ([], i)

/-- Last node of a chain (src/axl_hash.c:1578-1579). -/
def lastNode : List (HashNode κ δ φ) → List (HashNode κ δ φ)
  | [] => []
  | [n] => [n]
  | _ :: ns => lastNode ns

/-- The backward search of `__axl_hash_cursor_init` (src/axl_hash.c:1572-1588). -/
def initLastLoop (c : HashCursor κ δ φ) : Nat → Int → Option (List (HashNode κ δ φ) × Int)
  | 0, _ => none
  | fuel + 1, i =>
    if 0 < i then do
      let node ← c.bucket i
      if node ≠ [] then some (lastNode node, i) else initLastLoop c fuel (i - 1)
    else some ([], i)

/-- `axl_hash_cursor_first` (src/axl_hash.c:1551-1567, 1591-1593, 1686-1694): if nothing is found
`cursor->node` keeps its value. -/
def first (c : HashCursor κ δ φ) : Option (HashCursor κ δ φ) := do
  let (node, i) ← c.initFirstLoop (c.hash.hashSize + 1) 0
  if node ≠ [] then some { c with node := node, index := i } else some { c with index := 0 }

/-- `axl_hash_cursor_last` (src/axl_hash.c:1568-1593, 1703-1712). -/
def last (c : HashCursor κ δ φ) : Option (HashCursor κ δ φ) := do
  let (node, i) ← c.initLastLoop (c.hash.hashSize + 1) ((c.hash.hashSize : Int) - 1)
  if node ≠ [] then some { c with node := node, index := i } else some { c with node := [], index := 0 }

/-- `axl_hash_cursor_new` (src/axl_hash.c:1658-1678). -/
def new (h : AxlHash κ δ φ) : Option (HashCursor κ δ φ) := first ⟨h, [], 0⟩

/-- The search of `axl_hash_cursor_next` (src/axl_hash.c:1756-1767). -/
def nextLoop (c : HashCursor κ δ φ) : Nat → Int → Option (HashCursor κ δ φ)
  | 0, _ => none
  | fuel + 1, i =>
    if i < c.hash.hashSize then do
      let node ← c.bucket i
      if node ≠ [] then some { c with node := node, index := i } else nextLoop c fuel (i + 1)
    else some { c with node := [], index := i }

/-- `axl_hash_cursor_next` (src/axl_hash.c:1721-1771). -/
def next (c : HashCursor κ δ φ) : Option (HashCursor κ δ φ) :=
  match c.node with
  | [] => some c
  | _ :: n :: ns => some { c with node := n :: ns }
  | [_] =>
    if c.hash.hashSize ≤ c.index + 1 then some { c with node := [], index := c.index + 1 }
    else c.nextLoop (c.hash.hashSize + 1) (c.index + 1)

/-- The search of `axl_hash_cursor_has_next` (src/axl_hash.c:1796-1805). -/
def hasNextLoop (c : HashCursor κ δ φ) : Nat → Int → Option Bool
  | 0, _ => none
  | fuel + 1, i =>
    if i < c.hash.hashSize then do
      let node ← c.bucket i
      if node ≠ [] then some true else hasNextLoop c fuel (i + 1)
    else some false

/-- `axl_hash_cursor_has_next` (src/axl_hash.c:1783-1806). -/
def hasNext (c : HashCursor κ δ φ) : Option Bool :=
  match c.node with
  | _ :: _ :: _ => some true
  | _ => c.hasNextLoop (c.hash.hashSize + 1) (c.index + 1)

/-- `axl_hash_cursor_has_item` (src/axl_hash.c:1817-1823). -/
def hasItem (c : HashCursor κ δ φ) : Bool := !c.node.isEmpty

/-- `axl_hash_cursor_get_key` (src/axl_hash.c:1895-1905). -/
def getKey (c : HashCursor κ δ φ) : Option κ := c.node.head?.map (·.key)

/-- `axl_hash_cursor_get_value` (src/axl_hash.c:1877-1886). -/
def getValue (c : HashCursor κ δ φ) : Option δ := c.node.head?.bind (·.data)

/-- `axl_hash_cursor_remove` (src/axl_hash.c:1836-1869). -/
def remove (c : HashCursor κ δ φ) : Option (HashCursor κ δ φ) :=
  match c.node with
  | [] => some c
  | n :: rest => do
    let (_, h) ← c.hash.remove n.key
    let c := { c with hash := h, node := rest }
    if rest ≠ [] then some c else c.nextLoop (h.hashSize + 1) c.index

end HashCursor
end Axl
