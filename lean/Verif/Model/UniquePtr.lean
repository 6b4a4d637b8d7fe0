/-!
Model of `UniquePtr` (`include/zensim/ZpcResource.hpp`, lines 36-149) with stateful deleters.

Objects have identities; the state records how many were created (`new`), the deleter invocations
(object, deleter) so far, the raw pointers the client itself owns (fresh `new` results and results of
`release`), and the living `UniquePtr` objects with deleter and pointer (`none` is null).  Deleting an
object twice is undefined behaviour: the outcome `none`.  Deleters do not throw and destructors of the
objects do not touch the pointers.  Conversions between pointer types are left out.
-/
namespace Verif.UniquePtr

/-- `tuple<D, pointer> _storage`; line 148. -/
structure Ptr where
  del : Nat
  p : Option Nat
deriving DecidableEq, Repr

structure St where
  next : Nat
  deleted : List (Nat × Nat)
  raw : List Nat
  obj : Nat → Option Ptr

def init : St := ⟨0, [], [], fun _ => none⟩

/-- Functional update. -/
def upd {β : Type} (f : Nat → β) (i : Nat) (x : β) : Nat → β := fun j => if j = i then x else f j

/-- `deleter(p)`. -/
def del (d : Nat) (p : Nat) (s : St) : Option St :=
  if p < s.next ∧ p ∉ s.deleted.map (·.1) then some { s with deleted := (p, d) :: s.deleted } else none

/-- `if (old) deleter(old)`. -/
def delOpt (d : Nat) (p : Option Nat) (s : St) : Option St :=
  match p with
  | none => some s
  | some p => del d p s

def setObj (s : St) (i : Nat) (x : Option Ptr) : St := { s with obj := upd s.obj i x }

/-- `new T` by the client. -/
def newObj (s : St) : Option St := some { s with next := s.next + 1, raw := s.next :: s.raw }

/-- `UniquePtr(p, d)` with a raw pointer of the client, or `UniquePtr(nullptr)`; lines 43-67. -/
def ctor (i d : Nat) (p : Option Nat) (s : St) : Option St :=
  match s.obj i with
  | some _ => none
  | none => some { setObj s i (some ⟨d, p⟩) with raw := s.raw.filter fun q => some q ≠ p }

/-- `~UniquePtr()`; lines 111-116. -/
def dtor (i : Nat) (s : St) : Option St := do
  let u ← s.obj i
  let s ← delOpt u.del u.p s
  return setObj s i none

/-- `reset(p)`, `operator=(nullptr)`; lines 143-146, 49-52. -/
def reset (i : Nat) (p : Option Nat) (s : St) : Option St := do
  let u ← s.obj i
  let s := setObj s i (some ⟨u.del, p⟩)
  let s ← delOpt u.del u.p s
  return { s with raw := s.raw.filter fun q => some q ≠ p }

/-- `release()`; lines 139-141.  The pointer returned belongs to the client. -/
def release (i : Nat) (s : St) : Option (Option Nat × St) := do
  let u ← s.obj i
  let s := setObj s i (some ⟨u.del, none⟩)
  return (u.p, { s with raw := u.p.toList ++ s.raw })

/-- `UniquePtr(UniquePtr &&o)`; lines 77-79. -/
def moveCtor (i j : Nat) (s : St) : Option St :=
  match s.obj i with
  | some _ => none
  | none => do
    let o ← s.obj j
    let (p, s) ← release j s
    return { setObj s i (some ⟨o.del, p⟩) with raw := s.raw.filter fun q => some q ≠ p }

/-- `operator=(UniquePtr &&o)`; lines 80-85. -/
def moveAssign (i j : Nat) (s : St) : Option St := do
  let (p, s) ← release j s
  let s ← reset i p s
  let u ← s.obj i
  let o ← s.obj j
  return setObj s i (some ⟨o.del, u.p⟩)

/-- `swap`; lines 106-109. -/
def swap (i j : Nat) (s : St) : Option St := do
  let u ← s.obj i
  let v ← s.obj j
  return setObj (setObj s i (some v)) j (some u)

/-- Calls of a client. -/
inductive Op
  | newObj
  | ctor (i d : Nat) (p : Option Nat)
  | dtor (i : Nat)
  | reset (i : Nat) (p : Option Nat)
  | release (i : Nat)
  | moveCtor (i j : Nat)
  | moveAssign (i j : Nat)
  | swap (i j : Nat)
deriving DecidableEq

def step (s : St) : Op → Option St
  | .newObj => newObj s
  | .ctor i d p => ctor i d p s
  | .dtor i => dtor i s
  | .reset i p => reset i p s
  | .release i => (release i s).map (·.2)
  | .moveCtor i j => moveCtor i j s
  | .moveAssign i j => moveAssign i j s
  | .swap i j => swap i j s

end Verif.UniquePtr
