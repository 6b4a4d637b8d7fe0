/-!
Model of `copyable_ptr`, `include/zensim/types/Pointers.hpp`: a pointer that owns its object and copies it when it is copied.

Variables are numbers, the heap is a function of addresses.  Deleters are the default one; types derived from `T` (lines 54-88) move in the same way.  `none` is
undefined behaviour: access through a null or dangling pointer, or a second deletion.  Copying an object does not throw.
-/
namespace Verif.CopyPtr

/-- The pointers of the variables, the objects that exist, the next new address, and the addresses that were released to the user. -/
structure St (α : Type) where
  ptr : Nat → Option Nat
  heap : Nat → Option α
  next : Nat
  released : List Nat

/-- A change of a function at one place. -/
def upd {β : Type} (f : Nat → β) (k : Nat) (x : β) : Nat → β := fun j => if j = k then x else f j

/-- `delete p`. -/
def St.delete {α : Type} (s : St α) (p : Option Nat) : Option (St α) :=
  match p with
  | none => some s
  | some a => (s.heap a).map fun _ => { s with heap := upd s.heap a none }

/-- `unique_ptr::reset(p)`: the pointer changes first, then the old object is deleted. -/
def St.reset {α : Type} (s : St α) (v : Nat) (p : Option Nat) : Option (St α) := ({ s with ptr := upd s.ptr v p }).delete (s.ptr v)

/-- `new T(x)`: the state and the address. -/
def St.alloc {α : Type} (s : St α) (x : α) : St α × Nat := ({ s with heap := upd s.heap s.next (some x), next := s.next + 1 }, s.next)

/-- `*p` -/
def St.deref {α : Type} (s : St α) (v : Nat) : Option α := (s.ptr v).bind s.heap

/-- The operations of a program. -/
inductive Op (α : Type)
  | make (v : Nat) (x : α)
  | copy (dst src : Nat)
  | move (dst src : Nat)
  | reset (v : Nat)
  | release (v : Nat)
  | swap (v w : Nat)
  | write (v : Nat) (x : α)

/-- `step s op`: `reset(new T(x))` (line 105), copying (lines 38-44), moving (lines 92-93), `reset()` (line 105), which is also what the destructor does,
`release` (line 104), `swap` (line 107), and assignment to the object (line 96). -/
def step {α : Type} (s : St α) : Op α → Option (St α)
  | .make v x => (s.alloc x).1.reset v (some (s.alloc x).2)
  | .copy dst src => (s.deref src).bind fun x => (s.alloc x).1.reset dst (some (s.alloc x).2)
  | .move dst src => ({ s with ptr := upd s.ptr src none }).reset dst (s.ptr src)
  | .reset v => s.reset v none
  | .release v => some { s with ptr := upd s.ptr v none, released := (s.ptr v).toList ++ s.released }
  | .swap v w => some { s with ptr := upd (upd s.ptr v (s.ptr w)) w (s.ptr v) }
  | .write v x => (s.ptr v).bind fun a => (s.heap a).map fun _ => { s with heap := upd s.heap a (some x) }

/-- A program. -/
def run {α : Type} : List (Op α) → St α → Option (St α)
  | [], s => some s
  | o :: os, s => (step s o).bind (run os)

/-- At the start all variables are null and nothing exists. -/
def init (α : Type) : St α := ⟨fun _ => none, fun _ => none, 0, []⟩

end Verif.CopyPtr
