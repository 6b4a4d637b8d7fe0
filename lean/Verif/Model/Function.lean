/-!
Model of the type-erased `function<R(Args...)>` (`include/zensim/ZpcFunction.hpp`, lines 107-252).

Every callable object created inside a `function` (an `Owner` in the internal storage, or an object on
the heap held by a `Unique`) has an identity.  The state records how many were created and the sequence
of those destroyed.  Using or destroying a callable that was destroyed before is undefined behaviour:
the outcome `none`.  A callable moved with `memcpy` keeps its identity (callables are trivially
relocatable).  Invoking a callable returns its value `v` (arguments are left out); invoking an empty
`function` throws.  Callables that cannot be copied and callables whose constructor throws are included.
`swap` (lines 230-236) does not compile when instantiated and is not modelled; `function_ref` is not
modelled.
-/
namespace Verif.Function

/-- A callable held by a `function`: an ordinary one with value `v`, or a copy of another (possibly
empty) `function` object, made by `operator=(F &&)` when `F` is itself `function &`. -/
inductive Callable
  | leaf (id v : Nat) (copyable : Bool)
  | wrapEmpty (id : Nat)
  | wrap (id : Nat) (inner : Callable)
deriving DecidableEq, Repr

/-- Identities of all callable objects that live inside. -/
def Callable.ids : Callable → List Nat
  | .leaf id _ _ => [id]
  | .wrapEmpty id => [id]
  | .wrap id c => id :: c.ids

/-- Number of callables created so far, those destroyed so far (latest first), and the living `function`
objects with the callable that `_storage`, `_erasedFn` and `_manageFn` refer to. -/
structure St where
  next : Nat
  destroyed : List Nat
  obj : Nat → Option (Option Callable)

def init : St := ⟨0, [], fun _ => none⟩

/-- Functional update. -/
def upd {β : Type} (f : Nat → β) (i : Nat) (x : β) : Nat → β := fun j => if j = i then x else f j

/-- The callable object is alive. -/
def alive (s : St) (id : Nat) : Bool := decide (id < s.next) && !(s.destroyed.contains id)

/-- `_manageFn(_storage, nullptr, destruct)`; lines 174-175, 194-195. -/
def destroy (c : Option Callable) (s : St) : Option St :=
  match c with
  | none => some s
  | some c => if c.ids.all (alive s) then some { s with destroyed := c.ids ++ s.destroyed } else none

/-- Copy of a callable with new identities; `none`: the callable is not copyable and `StaticException`
is thrown; lines 176-183, 196-204. -/
def cloneFrom : Callable → Nat → Option (Callable × Nat)
  | .leaf _ v true, n => some (.leaf n v true, n + 1)
  | .leaf _ _ false, _ => none
  | .wrapEmpty _, n => some (.wrapEmpty n, n + 1)
  | .wrap _ c, n => (cloneFrom c n).map fun r => (.wrap r.2 r.1, r.2 + 1)

/-- Result of a call: new state and whether an exception left it. -/
abbrev Res := Option (St × Bool)

def setObj (s : St) (i : Nat) (c : Option Callable) : St := { s with obj := upd s.obj i (some c) }

/-- `function()`; line 139. -/
def ctor (i : Nat) (s : St) : Res :=
  match s.obj i with
  | some _ => none
  | none => some (setObj s i none, false)

/-- `~function()`; lines 140-142. -/
def dtor (i : Nat) (s : St) : Res := do
  let c ← s.obj i
  let s ← destroy c s
  return ({ s with obj := upd s.obj i none }, false)

/-- `operator=(F &&f)` for a callable that is not a `function`; lines 150-207.  `throws`: its
constructor throws. -/
def assign (i v : Nat) (copyable throws : Bool) (s : St) : Res := do
  let c ← s.obj i
  let s ← destroy c s
  if throws then return (s, true)
  else return ({ setObj s i (some (.leaf s.next v copyable)) with next := s.next + 1 }, false)

/-- `function(F &&f)`; lines 144-149.  When the constructor of the callable throws, no `function` object
comes into being. -/
def ctorFrom (i v : Nat) (copyable throws : Bool) (s : St) : Res :=
  match s.obj i with
  | some _ => none
  | none =>
    if throws then some (s, true)
    else some ({ setObj s i (some (.leaf s.next v copyable)) with next := s.next + 1 }, false)

/-- `operator=(const function &o)` with `this != &o`, for an object whose callable is `mine` (its old
callable is not destroyed); lines 212-220. -/
def copyInto (i : Nat) (o : Option Callable) (s : St) : Res :=
  match o with
  | none => some (setObj s i none, false)
  | some c =>
    if c.ids.all (alive s) then
      match cloneFrom c s.next with
      | none => some (s, true)
      | some (d, n) => some ({ setObj s i (some d) with next := n }, false)
    else none

/-- `function(const function &o)`; lines 209-211. -/
def copyCtor (i j : Nat) (s : St) : Res :=
  match s.obj i with
  | some _ => none
  | none => do
    let o ← s.obj j
    copyInto i o s

/-- `operator=(const function &o)`; lines 212-220. -/
def copyAssign (i j : Nat) (s : St) : Res := do
  let _ ← s.obj i
  let o ← s.obj j
  if i = j then return (s, false) else copyInto i o s

/-- `f_i = f_j` where `f_j` is not const: overload resolution selects `operator=(F &&)` with
`F = function &`, which stores a copy of `f_j` as a callable; lines 150-207, 188-190. -/
def lvalAssign (i j : Nat) (s : St) : Res := do
  let c ← s.obj i
  let s ← destroy c s
  let o ← s.obj j
  match o with
  | none => return ({ setObj s i (some (.wrapEmpty s.next)) with next := s.next + 1 }, false)
  | some d =>
    if d.ids.all (alive s) then
      match cloneFrom d s.next with
      | none => return (s, true)
      | some (e, n) => return ({ setObj s i (some (.wrap n e)) with next := n + 1 }, false)
    else none

/-- `function(function &&o)`; line 222. -/
def moveCtor (i j : Nat) (s : St) : Res :=
  match s.obj i with
  | some _ => none
  | none => do
    let o ← s.obj j
    return (setObj (setObj s j none) i o, false)

/-- `operator=(function &&o)`; lines 223-232. -/
def moveAssign (i j : Nat) (s : St) : Res := do
  let _ ← s.obj i
  let o ← s.obj j
  if i = j then return (s, false) else return (setObj (setObj s j none) i o, false)

/-- Invoking a callable; `none`: exception from an empty `function` inside. -/
def Callable.invoke : Callable → Option Nat
  | .leaf _ v _ => some v
  | .wrapEmpty _ => none
  | .wrap _ c => c.invoke

/-- `operator()`; lines 246-249.  Outer `none`: undefined behaviour (or no such object); inner `none`:
exception. -/
def call (i : Nat) (s : St) : Option (Option Nat) := do
  let o ← s.obj i
  match o with
  | none => return none
  | some c => if c.ids.all (alive s) then return c.invoke else none

/-- `operator bool`; line 244. -/
def test (i : Nat) (s : St) : Option Bool := (s.obj i).map Option.isSome

/-- Calls a client can make. -/
inductive Op
  | ctor (i : Nat)
  | dtor (i : Nat)
  | ctorFrom (i v : Nat) (copyable throws : Bool)
  | assign (i v : Nat) (copyable throws : Bool)
  | copyCtor (i j : Nat)
  | copyAssign (i j : Nat)
  | lvalAssign (i j : Nat)
  | moveCtor (i j : Nat)
  | moveAssign (i j : Nat)
deriving DecidableEq

def step (s : St) : Op → Res
  | .ctor i => ctor i s
  | .dtor i => dtor i s
  | .ctorFrom i v cp th => ctorFrom i v cp th s
  | .assign i v cp th => assign i v cp th s
  | .copyCtor i j => copyCtor i j s
  | .copyAssign i j => copyAssign i j s
  | .lvalAssign i j => lvalAssign i j s
  | .moveCtor i j => moveCtor i j s
  | .moveAssign i j => moveAssign i j s

end Verif.Function
