/-!
Model of one `WaitQueue` and the `ParkingLot` calls that use it
(`include/zensim/execution/ConcurrencyPrimitive.cpp`, lines 52-212).

Wait nodes are heap cells with identities.  `waiting` holds the nodes on which a thread is inside
`waitFor` (blocked on the condition variable, or signalled and not yet back).  Every section under the
queue's mutex is one step.  Undefined behaviour is the outcome `none`: use of a null or deleted node, and
deletion of a node (with its mutex and condition variable) on which a thread is waiting.
Keys are those after mixing; nodes of all keys that fall into the same of the 4096 queues share the list.
-/
namespace Verif.ParkingLot

/-- `WaitNode`; lines 52-91. -/
structure Node where
  key : Nat
  lot : Nat
  data : Nat
  signaled : Bool
  next : Option Nat
deriving DecidableEq, Repr

/-- `WaitQueue` with the heap of nodes; lines 93-97. -/
structure St where
  fresh : Nat
  heap : Nat → Option Node
  head : Option Nat
  count : Nat
  waiting : List Nat

def init : St := ⟨0, fun _ => none, none, 0, []⟩

/-- `UnparkControl`; hpp line 10. -/
inductive Control
  | retainContinue
  | removeContinue
  | retainBreak
  | removeBreak
deriving DecidableEq

def Control.removes : Control → Bool
  | .removeBreak => true
  | .removeContinue => true
  | _ => false

def Control.breaks : Control → Bool
  | .removeBreak => true
  | .retainBreak => true
  | _ => false

/-- Functional update. -/
def upd {β : Type} (f : Nat → β) (i : Nat) (x : β) : Nat → β := fun j => if j = i then x else f j

/-- `delete node`. -/
def free (i : Nat) (s : St) : Option St :=
  match s.heap i with
  | none => none
  | some _ => if i ∈ s.waiting then none else some { s with heap := upd s.heap i none }

/-- The loop of `erase`; lines 128-136. -/
def eraseLoop : Nat → Option Nat → Nat → Option Nat → St → Option St
  | 0, _, _, _, _ => none
  | fuel + 1, node, prev, cur, s =>
    match cur with
    | none => some s
    | some c => do
      let n ← s.heap c
      if node = some c then
        let p ← s.heap prev
        free c { s with heap := upd s.heap prev (some { p with next := n.next }) }
      else eraseLoop fuel node c n.next s

/-- `WaitQueue::erase`; lines 121-137.  Erasing the first node reads `_list->_next` after
`delete _list`. -/
def erase (node : Option Nat) (s : St) : Option St :=
  match s.head with
  | none => none
  | some h =>
    if node = some h then do
      let s ← free h s
      let n ← s.heap h
      return { s with head := n.next }
    else do
      let n ← s.heap h
      eraseLoop (s.fresh + 1) node h n.next s

/-- `WaitNodeBase::wake`; lines 76-80. -/
def wake (i : Nat) (s : St) : Option St := do
  let n ← s.heap i
  return { s with heap := upd s.heap i (some { n with signaled := true }) }

/-- The loop of `unpark`; lines 197-210. -/
def unparkLoop (key lot : Nat) (func : Nat → Control) : Nat → Option Nat → St → Option St
  | 0, _, _ => none
  | fuel + 1, st, s =>
    match st with
    | none => some s
    | some i => do
      let node ← s.heap i
      if node.key = key ∧ node.lot = lot then
        let r := func node.data
        let s ← if r.removes then (erase node.next s).bind (wake i) else some s
        if r.breaks then return s else unparkLoop key lot func fuel node.next s
      else unparkLoop key lot func fuel node.next s

/-- `ParkingLot::unpark`; lines 188-211. -/
def unpark (key lot : Nat) (func : Nat → Control) (s : St) : Option St :=
  if s.count = 0 then some s else unparkLoop key lot func (s.fresh + 1) s.head s

/-- First part of `parkFor`, up to falling asleep: `cond` is the outcome of the park condition; lines
157-175.  The node's identity is `s.fresh`. -/
def park (key lot data : Nat) (cond : Bool) (s : St) : Option St :=
  if cond then
    some { s with
      fresh := s.fresh + 1
      heap := upd s.heap s.fresh (some ⟨key, lot, data, false, s.head⟩)
      head := some s.fresh
      count := s.count + 1
      waiting := s.fresh :: s.waiting }
  else some s

/-- Second part of `parkFor` when the node was signalled (spurious wake-ups of the condition variable
loop in `waitFor`); lines 177-185.  Not possible while the node is not signalled. -/
def resume (i : Nat) (s : St) : Option (Bool × St) :=
  if i ∈ s.waiting then do
    let n ← s.heap i
    if n.signaled then return (true, { s with waiting := s.waiting.erase i }) else return (false, s)
  else none

/-- Second part of `parkFor` when the wait timed out; lines 177-185. -/
def timeout (i : Nat) (s : St) : Option St :=
  if i ∈ s.waiting then do
    let n ← s.heap i
    let s := { s with waiting := s.waiting.erase i }
    if n.signaled then return s else erase (some i) s
  else none

/-- Calls. -/
inductive Op
  | park (key lot data : Nat) (cond : Bool)
  | unpark (key lot : Nat) (func : Nat → Control)
  | resume (i : Nat)
  | timeout (i : Nat)

def step (s : St) : Op → Option St
  | .park key lot data cond => park key lot data cond s
  | .unpark key lot func => unpark key lot func s
  | .resume i => (resume i s).map (·.2)
  | .timeout i => timeout i s

def run (s : St) : List Op → Option St
  | [] => some s
  | op :: l => (step s op).bind fun s => run s l

/-- `notify_one`, `Mutex::unlock`; lines 412, 462. -/
def one : Nat → Control := fun _ => .removeBreak

/-- `notify_all`; line 471. -/
def all : Nat → Control := fun _ => .removeContinue

end Verif.ParkingLot
