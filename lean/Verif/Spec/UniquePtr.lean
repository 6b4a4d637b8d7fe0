import Verif.Model.UniquePtr
/-!
Specification of ownership: every object created is in exactly one place — owned by the client, owned by
one living pointer together with a deleter, or deleted by a deleter.
-/
namespace Verif.UniquePtr

/-- Where an object is. -/
inductive Place
  | client
  | ptr (i d : Nat)
  | deleted (d : Nat)
deriving DecidableEq

/-- Abstract state: number of objects, place of each, living pointers with their deleter. -/
structure Abs where
  num : Nat
  place : Nat → Place
  ptrs : Nat → Option Nat

/-- Objects held by pointer `i` go to `f d`, where `d` is their deleter. -/
def relocate (pl : Nat → Place) (i : Nat) (f : Nat → Place) : Nat → Place := fun o =>
  match pl o with
  | .ptr k d => if k = i then f d else .ptr k d
  | x => x

/-- Give the raw pointer `p` to pointer `i` with deleter `d`. -/
def give (pl : Nat → Place) (i d : Nat) (p : Option Nat) : Nat → Place := fun o =>
  if some o = p then .ptr i d else pl o

/-- The client owns `p` (or it is null). -/
def Mine (a : Abs) (p : Option Nat) : Prop := ∀ o, p = some o → o < a.num ∧ a.place o = .client

/-- Abstract effect of a call in its documented domain: pointers named exist (or do not yet), pointers
given are owned by the client. -/
inductive Effect (a : Abs) : Op → Abs → Prop
  | newObj : Effect a .newObj ⟨a.num + 1, fun o => if o = a.num then .client else a.place o, a.ptrs⟩
  | ctor (i d : Nat) (p : Option Nat) : a.ptrs i = none → Mine a p →
      Effect a (.ctor i d p) ⟨a.num, give a.place i d p, upd a.ptrs i (some d)⟩
  | dtor (i d : Nat) : a.ptrs i = some d →
      Effect a (.dtor i) ⟨a.num, relocate a.place i .deleted, upd a.ptrs i none⟩
  | reset (i d : Nat) (p : Option Nat) : a.ptrs i = some d → Mine a p →
      Effect a (.reset i p) ⟨a.num, give (relocate a.place i .deleted) i d p, a.ptrs⟩
  | release (i d : Nat) : a.ptrs i = some d →
      Effect a (.release i) ⟨a.num, relocate a.place i fun _ => .client, a.ptrs⟩
  | moveCtor (i j d : Nat) : a.ptrs i = none → a.ptrs j = some d →
      Effect a (.moveCtor i j) ⟨a.num, relocate a.place j fun d => .ptr i d, upd a.ptrs i (some d)⟩
  | moveAssign (i j d d' : Nat) : a.ptrs i = some d → a.ptrs j = some d' → i ≠ j →
      Effect a (.moveAssign i j)
        ⟨a.num, relocate (relocate a.place i .deleted) j fun d => .ptr i d, upd a.ptrs i (some d')⟩
  | selfMove (i d : Nat) : a.ptrs i = some d → Effect a (.moveAssign i i) a
  | swap (i j d d' : Nat) : a.ptrs i = some d → a.ptrs j = some d' →
      Effect a (.swap i j) ⟨a.num, fun o =>
        match a.place o with
        | .ptr k d => if k = i then .ptr j d else if k = j then .ptr i d else .ptr k d
        | x => x, upd (upd a.ptrs i (some d')) j (some d)⟩

/-- The concrete state shows the abstract one. -/
structure Shows (s : St) (a : Abs) : Prop where
  num : s.next = a.num
  alive : ∀ i, (s.obj i).map (·.del) = a.ptrs i
  held : ∀ i d o, s.obj i = some ⟨d, some o⟩ ↔ o < a.num ∧ a.place o = .ptr i d
  client : ∀ o, o ∈ s.raw ↔ o < a.num ∧ a.place o = .client
  deleted : ∀ o d, (o, d) ∈ s.deleted ↔ o < a.num ∧ a.place o = .deleted d
  once : (s.deleted.map (·.1)).Nodup

/-- States after a history of calls. -/
inductive Reach : St → Abs → Prop
  | init : Reach init ⟨0, fun _ => .client, fun _ => none⟩
  | call (op : Op) (s s' : St) (a a' : Abs) : Reach s a → Effect a op a' → step s op = some s' →
      Reach s' a'

end Verif.UniquePtr
