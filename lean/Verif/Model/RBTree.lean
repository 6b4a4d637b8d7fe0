import Mathlib.Order.Defs.LinearOrder

/-!
Model of `RBTreeMap` (`include/zensim/container/RBTreeMap.hpp`) at the level of its nodes and pointers.

A pointer is a `Nat`, `0` being `nullptr`; the heap maps the addresses of live nodes to their fields.
Reading, writing or freeing through an address that is not live is undefined behaviour: the outcome
`none`.  A failing `assert` is the outcome `none` too.  Every loop and recursion takes fuel, running out
is the outcome `none`; the callers give as much fuel as there ever were allocations, and the theorems show
that it suffices.  `new` does not fail, `cnt` does not overflow, and keys and values copy without effect.
`Compare` and `==` on keys are those of a linear order.
-/
namespace Verif.RBTree

/-- `Node`; lines 28-36.  `red` is `color == RED`. -/
structure Node (K V : Type) where
  red : Bool
  parent : Nat
  left : Nat
  right : Nat
  first : K
  second : V

/-- The members (lines 66-68) and the heap; `next` is the next address `new` returns. -/
structure St (K V : Type) where
  heap : Nat → Option (Node K V)
  root : Nat
  header : Nat
  cnt : Nat
  next : Nat

/-- Programs. -/
def M (K V α : Type) : Type := St K V → Option (α × St K V)

instance {K V : Type} : Monad (M K V) where
  pure a := fun s => some (a, s)
  bind m f := fun s =>
    match m s with
    | none => none
    | some (a, s') => f a s'

section
variable {K V : Type}

/-- Store `n` at `p`. -/
def St.set (s : St K V) (p : Nat) (n : Option (Node K V)) : St K V :=
  { s with heap := fun x => if x = p then n else s.heap x }

/-- The fields of `*p`. -/
def rd (p : Nat) : M K V (Node K V) := fun s =>
  match s.heap p with
  | none => none
  | some n => some (n, s)

/-- Change fields of `*p`. -/
def wr (p : Nat) (f : Node K V → Node K V) : M K V Unit := fun s =>
  match s.heap p with
  | none => none
  | some n => some ((), s.set p (some (f n)))

/-- `delete p`. -/
def free (p : Nat) : M K V Unit := fun s =>
  match s.heap p with
  | none => none
  | some _ => some ((), s.set p none)

/-- `new Node(k, v)`; lines 30-34, 39. -/
def alloc (k : K) (v : V) : M K V Nat := fun s =>
  some (s.next, { s.set s.next (some ⟨true, 0, 0, 0, k, v⟩) with next := s.next + 1 })

def assertThat (b : Bool) : M K V Unit := fun s => if b then some ((), s) else none

def theRoot : M K V Nat := fun s => some (s.root, s)

def theHeader : M K V Nat := fun s => some (s.header, s)

/-- `size()`; line 322. -/
def size : M K V Nat := fun s => some (s.cnt, s)

/-- `empty()`; line 328. -/
def empty : M K V Bool := fun s => some (s.cnt == 0, s)

def setRoot (p : Nat) : M K V Unit := fun s => some ((), { s with root := p })

def setCnt (n : Nat) : M K V Unit := fun s => some ((), { s with cnt := n })

/-- Fuel for a loop or recursion. -/
def fuelled {α : Type} (f : Nat → M K V α) : M K V α := fun s => f s.next s

/-! ## Navigation (lines 70-105) -/

inductive Dir
  | left | root | right
  deriving DecidableEq

/-- `isRoot`; line 70. -/
def isRoot (p : Nat) : M K V Bool := do
  let r ← theRoot
  return r == p

/-- `getDirection`; lines 72-82. -/
def getDirection (p : Nat) : M K V Dir := do
  if ← isRoot p then return .root
  else
    let n ← rd p
    let q ← rd n.parent
    if p = q.left then return .left else return .right

/-- `getSibling`; lines 84-90. -/
def getSibling (p : Nat) : M K V Nat := do
  let d ← getDirection p
  let n ← rd p
  let q ← rd n.parent
  if d = .left then return q.right else return q.left

/-- `hasSibling`; lines 92-94. -/
def hasSibling (p : Nat) : M K V Bool := do
  if ← isRoot p then return false
  else
    let s ← getSibling p
    return s != 0

/-- `getUncle`; line 96. -/
def getUncle (p : Nat) : M K V Nat := do
  let n ← rd p
  getSibling n.parent

/-- `hasUncle`; lines 98-100. -/
def hasUncle (p : Nat) : M K V Bool := do
  if ← isRoot p then return false
  else
    let n ← rd p
    hasSibling n.parent

/-- `getGrandParent`; line 102. -/
def getGrandParent (p : Nat) : M K V Nat := do
  let n ← rd p
  let q ← rd n.parent
  return q.parent

/-! ## Rotations (lines 628-719) -/

/-- `if (c != nullptr) c->parent = p`. -/
def adopt (c p : Nat) : M K V Unit :=
  if c = 0 then pure () else wr c fun n => { n with parent := p }

/-- `maintainRelationship`; lines 628-635. -/
def maintainRelationship (p : Nat) : M K V Unit := do
  let n ← rd p
  adopt n.left p
  let n ← rd p
  adopt n.right p

/-- The `switch` of lines 655-665, 688-698 and 1147-1157. -/
def relink (d : Dir) (parent q : Nat) : M K V Unit :=
  match d with
  | .root => do
    let h ← theHeader
    wr h fun n => { n with parent := q }
    setRoot q
  | .left => wr parent fun n => { n with left := q }
  | .right => wr parent fun n => { n with right := q }

/-- `rotateLeft`; lines 637-668. -/
def rotateLeft (p : Nat) : M K V Unit := do
  let n ← rd p
  assertThat (n.right != 0)
  let d ← getDirection p
  let s ← rd n.right
  wr p fun m => { m with right := s.left }
  wr n.right fun m => { m with left := p }
  maintainRelationship p
  maintainRelationship n.right
  relink d n.parent n.right
  wr n.right fun m => { m with parent := n.parent }

/-- `rotateRight`; lines 670-701. -/
def rotateRight (p : Nat) : M K V Unit := do
  let n ← rd p
  assertThat (n.left != 0)
  let d ← getDirection p
  let s ← rd n.left
  wr p fun m => { m with left := s.right }
  wr n.left fun m => { m with right := p }
  maintainRelationship p
  maintainRelationship n.left
  relink d n.parent n.left
  wr n.left fun m => { m with parent := n.parent }

/-- `rotateSameDirection`; lines 703-710. -/
def rotateSameDirection (p : Nat) (d : Dir) : M K V Unit := do
  assertThat (d != .root)
  if d = .left then rotateLeft p else rotateRight p

/-- `rotateOppositeDirection`; lines 712-719. -/
def rotateOppositeDirection (p : Nat) (d : Dir) : M K V Unit := do
  assertThat (d != .root)
  if d = .left then rotateRight p else rotateLeft p

/-- `p->color = RED` or `BLACK`. -/
def paint (p : Nat) (red : Bool) : M K V Unit := wr p fun n => { n with red := red }

/-! ## Insertion (lines 721-848, 866-899) -/

/-- `hasUncle(node) && getUncle(node)->isRed()`; line 749. -/
def redUncle (p : Nat) : M K V Bool := do
  if ← hasUncle p then
    let u ← getUncle p
    let n ← rd u
    return n.red
  else return false

/-- Case 5, lines 770-787: the node that goes into case 6. -/
def straighten (p : Nat) : M K V Nat := do
  let d ← getDirection p
  let n ← rd p
  let d' ← getDirection n.parent
  if d = d' then return p
  else if d = .left then
    rotateRight n.parent
    return n.parent
  else
    rotateLeft n.parent
    return n.parent

/-- Case 6, lines 799-805. -/
def raise (p : Nat) : M K V Unit := do
  let n ← rd p
  let d ← getDirection n.parent
  let g ← getGrandParent p
  if d = .left then rotateRight g else rotateLeft g
  let n ← rd p
  paint n.parent false
  let s ← getSibling p
  paint s true

/-- Case 4, lines 758-761: the node to go on with. -/
def recolour (p : Nat) : M K V Nat := do
  let n ← rd p
  paint n.parent false
  let u ← getUncle p
  paint u false
  let g ← getGrandParent p
  paint g true
  return g

/-- `maintainAfterInsert`; lines 721-809.  The condition of line 766 is the negation of that of line 749. -/
def maintainAfterInsert : Nat → Nat → M K V Unit
  | 0, _ => fun _ => none
  | fuel + 1, p => do
    if ← isRoot p then paint p false
    else
      let n ← rd p
      let q ← rd n.parent
      if q.red = false then pure ()
      else if ← isRoot n.parent then paint n.parent false
      else if ← redUncle p then
        let g ← recolour p
        maintainAfterInsert fuel g
      else
        let p ← straighten p
        raise p

/-- `if (this->header->left == node) this->header->left = node->left`; lines 827, 881. -/
def extendLeft (p id : Nat) : M K V Unit := do
  let h ← theHeader
  let n ← rd h
  if n.left = p then wr h fun n => { n with left := id } else pure ()

/-- Lines 839, 892. -/
def extendRight (p id : Nat) : M K V Unit := do
  let h ← theHeader
  let n ← rd h
  if n.right = p then wr h fun n => { n with right := id } else pure ()

def countUp : M K V Unit := do
  let n ← size
  setCnt (n + 1)

/-- Lines 824-829, 879-883. -/
def attachLeft (p : Nat) (k : K) (v : V) : M K V Nat := do
  let id ← alloc k v
  wr p fun n => { n with left := id }
  wr id fun n => { n with parent := p }
  extendLeft p id
  fuelled fun f => maintainAfterInsert f id
  countUp
  return id

/-- Lines 836-841, 890-894. -/
def attachRight (p : Nat) (k : K) (v : V) : M K V Nat := do
  let id ← alloc k v
  wr p fun n => { n with right := id }
  wr id fun n => { n with parent := p }
  extendRight p id
  fuelled fun f => maintainAfterInsert f id
  countUp
  return id

variable [LinearOrder K]

/-- The private `insert` (lines 866-899) with `replace` true, and `getNodeOrProvide` (lines 811-848) with
`replace` false and `v` the value of the provided node; the two functions differ in nothing else. -/
def place (replace : Bool) : Nat → Nat → K → V → M K V Nat
  | 0, _, _, _ => fun _ => none
  | fuel + 1, p, k, v => do
    let n ← rd p
    if k = n.first then
      if replace then
        wr p fun n => { n with second := v }
        return p
      else return p
    else if k < n.first then
      if n.left = 0 then attachLeft p k v else place replace fuel n.left k v
    else
      if n.right = 0 then attachRight p k v else place replace fuel n.right k v

/-- Lines 375-380, 401-406: the first node. -/
def plant (k : K) (v : V) : M K V Nat := do
  let id ← alloc k v
  setRoot id
  let h ← theHeader
  wr id fun n => { n with parent := h }
  paint id false
  wr h fun n => { n with parent := id }
  wr h fun n => { n with left := id, right := id }
  countUp
  return id

/-- `insert`; lines 399-410. -/
def insert (k : K) (v : V) : M K V Unit := do
  let r ← theRoot
  if r = 0 then
    let _ ← plant k v
    return ()
  else
    let _ ← fuelled fun f => place true f r k v
    return ()

/-- `getOrDefault` and `operator[]` (lines 373-385, 413): the node whose `second` is returned by
reference. -/
def getOrDefault [Inhabited V] (k : K) : M K V Nat := do
  let r ← theRoot
  if r = 0 then plant k default
  else fuelled fun f => place false f r k default

/-- `map[k] = v`. -/
def assign [Inhabited V] (k : K) (v : V) : M K V Unit := do
  let p ← getOrDefault k
  wr p fun n => { n with second := v }

/-! ## Lookup (lines 353-364, 392, 850-864) -/

/-- `getNode`; lines 850-864. -/
def getNode : Nat → Nat → K → M K V Nat
  | 0, _, _ => fun _ => none
  | fuel + 1, p, k => do
    let n ← rd p
    if k = n.first then return p
    else if k < n.first then
      if n.left = 0 then return 0 else getNode fuel n.left k
    else
      if n.right = 0 then return 0 else getNode fuel n.right k

/-- `get` and `at` (lines 353-364, 412); `none` is the exception. -/
def get (k : K) : M K V (Option V) := do
  let r ← theRoot
  if r = 0 then return none
  else
    let p ← fuelled fun f => getNode f r k
    if p = 0 then return none
    else
      let n ← rd p
      return some n.second

/-- `count`; line 392. -/
def count (k : K) : M K V Nat := do
  let r ← theRoot
  let p ← fuelled fun f => getNode f r k
  if p = 0 then return 0 else return 1

end

section
variable {K V : Type}

/-! ## Removal (lines 334-343, 901-1172) -/

/-- `release`; lines 44-58. -/
def release : Nat → Nat → M K V Unit
  | 0, _ => fun _ => none
  | fuel + 1, p => do
    wr p fun n => { n with parent := 0 }
    let n ← rd p
    if n.left = 0 then pure ()
    else if n.left = p then wr p fun n => { n with left := 0 }
    else
      release fuel n.left
      free n.left
      wr p fun n => { n with left := 0 }
    if n.right = 0 then pure ()
    else if n.right = p then pure ()
    else
      release fuel n.right
      free n.right

/-- `clear`; lines 334-343. -/
def clear : M K V Unit := do
  let h ← theHeader
  wr h fun n => { n with left := h, right := h }
  let r ← theRoot
  if r = 0 then setCnt 0
  else
    fuelled fun f => release f r
    wr h fun n => { n with parent := 0 }
    free r
    setRoot 0
    setCnt 0

/-- Case 1 of `maintainAfterRemove`, lines 922-931: the sibling to go on with. -/
def redSibling (p sibling : Nat) (d : Dir) : M K V Nat := do
  let n ← rd p
  let q ← rd n.parent
  assertThat (!q.red)
  let s ← rd sibling
  let l ← rd s.left
  assertThat (!l.red)
  let r ← rd s.right
  assertThat (!r.red)
  rotateSameDirection n.parent d
  paint sibling false
  paint n.parent true
  getSibling p

/-- `closeNephew`; lines 934, 989. -/
def closeNephew (sibling : Nat) (d : Dir) : M K V Nat := do
  let s ← rd sibling
  if d = .left then return s.left else return s.right

/-- `distantNephew`; lines 935, 990. -/
def distantNephew (sibling : Nat) (d : Dir) : M K V Nat := do
  let s ← rd sibling
  if d = .left then return s.right else return s.left

/-- `p == nullptr || p->isBlack()`; lines 937, 938. -/
def isBlackOrNull (p : Nat) : M K V Bool :=
  if p = 0 then pure true
  else do
    let n ← rd p
    return !n.red

/-- Case 4, lines 983-988: the new sibling. -/
def closeRed (p sibling close : Nat) (d : Dir) : M K V Nat := do
  rotateOppositeDirection sibling d
  paint close false
  paint sibling true
  getSibling p

/-- Case 5, lines 989, 990, 1000-1010. -/
def distantRed (p sibling : Nat) (d : Dir) : M K V Unit := do
  let close ← closeNephew sibling d
  let distant ← distantNephew sibling d
  let b ← isBlackOrNull close
  assertThat b
  let e ← rd distant
  assertThat e.red
  let n ← rd p
  rotateSameDirection n.parent d
  let n ← rd p
  let q ← rd n.parent
  paint sibling q.red
  paint n.parent false
  paint distant false

/-- `getSibling` and case 1 of `maintainAfterRemove`; lines 910-932. -/
def blackSibling (p : Nat) (d : Dir) : M K V Nat := do
  let sibling ← getSibling p
  let s ← rd sibling
  if s.red then redSibling p sibling d else return sibling

/-- Lines 968-991. -/
def distantSibling (p sibling close : Nat) (d : Dir) (cb : Bool) : M K V Nat :=
  if cb then pure sibling else closeRed p sibling close d

/-- `maintainAfterRemove`; lines 901-1012. -/
def maintainAfterRemove : Nat → Nat → M K V Unit
  | 0, _ => fun _ => none
  | fuel + 1, p => do
    if ← isRoot p then pure ()
    else
      let n ← rd p
      let hs ← hasSibling p
      assertThat (!n.red && hs)
      let d ← getDirection p
      let sibling ← blackSibling p d
      let close ← closeNephew sibling d
      let distant ← distantNephew sibling d
      let cb ← isBlackOrNull close
      let db ← isBlackOrNull distant
      let s ← rd sibling
      assertThat (!s.red)
      if cb && db then
        let n ← rd p
        let q ← rd n.parent
        if q.red then
          paint sibling true
          paint n.parent false
        else
          paint sibling true
          maintainAfterRemove fuel n.parent
      else
        let sibling ← distantSibling p sibling close d cb
        distantRed p sibling d

/-- `while (l->left != nullptr) l = l->left`; lines 117, 1043. -/
def leftmost : Nat → Nat → M K V Nat
  | 0, _ => fun _ => none
  | fuel + 1, p => do
    let n ← rd p
    if n.left = 0 then return p else leftmost fuel n.left

/-- `while (r->right != nullptr) r = r->right`; lines 133, 1052. -/
def rightmost : Nat → Nat → M K V Nat
  | 0, _ => fun _ => none
  | fuel + 1, p => do
    let n ← rd p
    if n.right = 0 then return p else rightmost fuel n.right

/-- Lines 1040-1048. -/
def retractLeft (p : Nat) : M K V Unit := do
  let h ← theHeader
  let c ← rd h
  if c.left = p then
    let n ← rd p
    if n.right = 0 then wr h fun c => { c with left := n.parent }
    else
      let l ← fuelled fun f => leftmost f n.right
      wr h fun c => { c with left := l }
  else pure ()

/-- Lines 1049-1057. -/
def retractRight (p : Nat) : M K V Unit := do
  let h ← theHeader
  let c ← rd h
  if c.right = p then
    let n ← rd p
    if n.left = 0 then wr h fun c => { c with right := n.parent }
    else
      let r ← fuelled fun f => rightmost f n.left
      wr h fun c => { c with right := r }
  else pure ()

/-- Lines 1083-1088: the successor and its parent. -/
def findSuccessor : Nat → Nat → Nat → M K V (Nat × Nat)
  | 0, _, _ => fun _ => none
  | fuel + 1, successor, parent => do
    let n ← rd successor
    if n.left = 0 then return (successor, parent) else findSuccessor fuel n.left successor

/-- The `switch` of lines 1090-1097, which has no case for the root. -/
def relinkBelow (d : Dir) (parent q : Nat) : M K V Unit :=
  match d with
  | .root => pure ()
  | .left => wr parent fun n => { n with left := q }
  | .right => wr parent fun n => { n with right := q }

/-- The four `std::swap` of lines 1109-1112. -/
def swapLinks (p q : Nat) : M K V Unit := do
  let n ← rd p
  let m ← rd q
  wr p fun _ => { n with parent := m.parent, left := m.left, right := m.right, red := m.red }
  wr q fun _ => { m with parent := n.parent, left := n.left, right := n.right, red := n.red }

/-- Case 1 of `remove`, lines 1083-1115. -/
def swapWithSuccessor (p : Nat) : M K V Unit := do
  let n ← rd p
  let (successor, parent) ← fuelled fun f => findSuccessor f n.right p
  let d ← getDirection successor
  let m ← rd successor
  relinkBelow d m.parent p
  let d ← getDirection p
  relink d n.parent successor
  swapLinks p successor
  maintainRelationship p
  maintainRelationship successor
  maintainRelationship parent

/-- Lines 1132-1138. -/
def unlinkLeaf (p : Nat) : M K V Unit := do
  let d ← getDirection p
  let n ← rd p
  let q ← rd n.parent
  if d = .left then
    free q.left
    wr n.parent fun q => { q with left := 0 }
  else
    free q.right
    wr n.parent fun q => { q with right := 0 }

/-- Case 2 of `remove`, lines 1120-1138. -/
def removeLeaf (p : Nat) : M K V Unit := do
  let b ← isRoot p
  assertThat (!b)
  let n ← rd p
  if n.red then unlinkLeaf p
  else
    fuelled fun f => maintainAfterRemove f p
    unlinkLeaf p

/-- Case 3 of `remove`, lines 1140-1167. -/
def removeSingle (p : Nat) : M K V Unit := do
  let n ← rd p
  assertThat (n.left == 0 || n.right == 0)
  let replacement := if n.left = 0 then n.right else n.left
  let d ← getDirection p
  relink d n.parent replacement
  let m ← rd replacement
  free m.parent
  wr replacement fun m => { m with parent := n.parent }
  if n.red then pure ()
  else
    let m ← rd replacement
    if m.red then paint replacement false
    else fuelled fun f => maintainAfterRemove f replacement

/-- Lines 1118-1168. -/
def unlink (p : Nat) : M K V Unit := do
  let n ← rd p
  if n.left = 0 ∧ n.right = 0 then removeLeaf p else removeSingle p

/-- Lines 1066-1116. -/
def sink (p : Nat) : M K V Unit := do
  let n ← rd p
  if n.left = 0 ∨ n.right = 0 then pure () else swapWithSuccessor p

/-- Lines 1039-1171: the node with the key has been found. -/
def removeNode (p : Nat) : M K V Bool := do
  retractLeft p
  retractRight p
  let c ← size
  if c = 1 then
    clear
    return true
  else
    sink p
    unlink p
    setCnt (c - 1)
    return true

/-- `b && (maintainRelationship(node), true)`; lines 1021-1026, 1030-1035. -/
def afterRemove (p : Nat) (b : Bool) : M K V Bool :=
  if b then do
    maintainRelationship p
    return true
  else pure false

/-- `remove`; lines 1014-1172. -/
def remove [LinearOrder K] : Nat → Nat → K → M K V Bool
  | 0, _, _ => fun _ => none
  | fuel + 1, p, k => do
    let n ← rd p
    if k = n.first then removeNode p
    else if k < n.first then
      if n.left = 0 then return false
      else
        let b ← remove fuel n.left k
        afterRemove p b
    else
      if n.right = 0 then return false
      else
        let b ← remove fuel n.right k
        afterRemove p b

/-- `erase(K key)`; lines 497-503. -/
def erase [LinearOrder K] (k : K) : M K V Nat := do
  let r ← theRoot
  if r = 0 then return 0
  else
    let b ← fuelled fun f => remove f r k
    if b then return 1 else return 0

/-! ## Iterators (lines 109-272, 301-316) -/

/-- `begin()`; line 301. -/
def begin : M K V Nat := do
  let h ← theHeader
  let c ← rd h
  return c.left

/-- `end()`, `rend()`; lines 302, 312. -/
def endIt : M K V Nat := theHeader

/-- `rbegin()`; line 309. -/
def rbegin : M K V Nat := do
  let h ← theHeader
  let c ← rd h
  return c.right

/-- `while (_node == _y->right) …`, then line 124. -/
def climbRight : Nat → Nat → Nat → M K V Nat
  | 0, _, _ => fun _ => none
  | fuel + 1, p, y => do
    let c ← rd y
    if p = c.right then climbRight fuel y c.parent
    else
      let n ← rd p
      if n.right = y then return p else return y

/-- `while (_node == _y->left) …`, then line 140. -/
def climbLeft : Nat → Nat → Nat → M K V Nat
  | 0, _, _ => fun _ => none
  | fuel + 1, p, y => do
    let c ← rd y
    if p = c.left then climbLeft fuel y c.parent
    else
      let n ← rd p
      if n.left = y then return p else return y

/-- `iterator_impl::increment`; lines 114-126.  `const_iterator_impl` has the same. -/
def increment (p : Nat) : M K V Nat := do
  let n ← rd p
  if n.right = 0 then fuelled fun f => climbRight (f + 1) p n.parent
  else fuelled fun f => leftmost f n.right

/-- `reverse_iterator_impl::increment`; lines 193-205.  `const_reverse_iterator_impl` has the same. -/
def rincrement (p : Nat) : M K V Nat := do
  let n ← rd p
  if n.left = 0 then fuelled fun f => climbLeft (f + 1) p n.parent
  else fuelled fun f => rightmost f n.left

/-- `_node->isRed() && _node->parent->parent == _node`; line 128. -/
def atEnd (p : Nat) : M K V Bool := do
  let n ← rd p
  if n.red then
    let q ← rd n.parent
    return q.parent == p
  else return false

/-- `iterator_impl::decrement`; lines 127-142. -/
def decrement (p : Nat) : M K V Nat := do
  let b ← atEnd p
  if b then
    let n ← rd p
    return n.right
  else rincrement p

/-- `reverse_iterator_impl::decrement`; lines 206-221. -/
def rdecrement (p : Nat) : M K V Nat := do
  let b ← atEnd p
  if b then
    let n ← rd p
    return n.left
  else increment p

/-- `const_reverse_iterator_impl::decrement`; lines 247-262. -/
def crdecrement (p : Nat) : M K V Nat := do
  let b ← atEnd p
  if b then
    let n ← rd p
    return n.right
  else increment p

/-- `*it`. -/
def deref (p : Nat) : M K V (K × V) := do
  let n ← rd p
  return (n.first, n.second)

/-- `erase(iterator position)`; lines 420-430. -/
def eraseAt [LinearOrder K] (p : Nat) : M K V Nat := do
  let e ← endIt
  if p = 0 ∨ p = e then return p
  else
    let next ← increment p
    let r ← theRoot
    let n ← rd p
    let _ ← fuelled fun f => remove f r n.first
    return next

/-- The loop of `erase(iterator first, iterator last)`; lines 460-465. -/
def eraseLoop [LinearOrder K] : Nat → Nat → Nat → M K V Unit
  | 0, _, _ => fun _ => none
  | fuel + 1, first, last => do
    if first = last then pure ()
    else
      let next ← increment first
      let r ← theRoot
      let n ← rd first
      let _ ← fuelled fun f => remove f r n.first
      eraseLoop fuel next last

/-- `erase(iterator first, iterator last)`; lines 455-468. -/
def eraseRange [LinearOrder K] (first last : Nat) : M K V Nat := do
  let b ← begin
  let e ← endIt
  if first = b ∧ last = e then
    clear
    endIt
  else
    fuelled fun f => eraseLoop f first last
    return last

/-! ## Bounds (lines 510-591) -/

/-- Lines 534-544, 576-586. -/
def climbOut : Nat → Nat → M K V Nat
  | 0, _ => fun _ => none
  | fuel + 1, p => do
    let d ← getDirection p
    let n ← rd p
    if d = .right then climbOut fuel n.parent else return n.parent

variable [LinearOrder K]

/-- The loop of `lower_bound`; lines 517-547. -/
def lowerLoop : Nat → Nat → K → M K V Nat
  | 0, _, _ => fun _ => none
  | fuel + 1, p, k => do
    let n ← rd p
    if k = n.first then return p
    else if k < n.first then
      if n.left = 0 then return p else lowerLoop fuel n.left k
    else
      if n.right = 0 then fuelled fun f => climbOut f p else lowerLoop fuel n.right k

/-- `lower_bound`; lines 510-549. -/
def lowerBound (k : K) : M K V Nat := do
  let r ← theRoot
  if r = 0 then theHeader else fuelled fun f => lowerLoop f r k

/-- The loop of `upper_bound`; lines 563-589. -/
def upperLoop : Nat → Nat → K → M K V Nat
  | 0, _, _ => fun _ => none
  | fuel + 1, p, k => do
    let n ← rd p
    if k < n.first then
      if n.left = 0 then return p else upperLoop fuel n.left k
    else
      if n.right = 0 then fuelled fun f => climbOut f p else upperLoop fuel n.right k

/-- `upper_bound`; lines 556-591. -/
def upperBound (k : K) : M K V Nat := do
  let r ← theRoot
  if r = 0 then theHeader else fuelled fun f => upperLoop f r k

end

section
variable {K V : Type}

/-- `inorderTraversal` (lines 1174-1194) as one loop: push while there is a node, else visit the top of
the stack.  The result is what `forEach` (lines 614-616) passes to the action, in order. -/
def traverse : Nat → Nat → List Nat → M K V (List (K × V))
  | 0, _, _ => fun _ => none
  | fuel + 1, p, stack =>
    if p = 0 then
      match stack with
      | [] => pure []
      | q :: stack => do
        let n ← rd q
        let rest ← traverse fuel n.right stack
        return (n.first, n.second) :: rest
    else do
      let n ← rd p
      traverse fuel n.left (p :: stack)

/-- `forEach`; lines 614-616. -/
def forEach : M K V (List (K × V)) := do
  let r ← theRoot
  if r = 0 then return [] else fuelled fun f => traverse (2 * f + 1) r []

/-- The constructor; lines 288-292. -/
def construct [Inhabited K] [Inhabited V] : St K V :=
  { heap := fun x => if x = 1 then some ⟨true, 0, 1, 1, default, default⟩ else none
    root := 0
    header := 1
    cnt := 0
    next := 2 }

/-- The destructor; lines 294-299. -/
def destruct : M K V Unit := do
  clear
  let h ← theHeader
  wr h fun n => { n with left := 0, right := 0 }
  free h

end

end Verif.RBTree
