import Verif.Model.BitMask
/-! Specification for C08/C09: histories of `bit_mask` operations and the set they denote. -/
namespace Verif.BitMask

/-- How a mask value was produced: a constructor or whole-mask assignment followed by any number of
operations (binary operators take a second mask with its own history). -/
inductive Hist where
  | off
  | on
  | setOn (h : Hist) (n : Nat)
  | setOff (h : Hist) (n : Nat)
  | toggle (h : Hist) (n : Nat)
  | toggleAll (h : Hist)
  | and (h g : Hist)
  | or (h g : Hist)
  | diff (h g : Hist)
  | xor (h g : Hist)

/-- All positions are inside the universe `{0, …, size-1}`. -/
def Hist.Valid (size : Nat) : Hist → Prop
  | .off | .on => True
  | .setOn h n | .setOff h n | .toggle h n => n < size ∧ h.Valid size
  | .toggleAll h => h.Valid size
  | .and h g | .or h g | .diff h g | .xor h g => h.Valid size ∧ g.Valid size

/-- Never turns a whole mask on at once. -/
def Hist.PointWise : Hist → Prop
  | .off => True
  | .on | .toggleAll _ => False
  | .setOn h _ | .setOff h _ | .toggle h _ => h.PointWise
  | .and h g | .or h g | .diff h g | .xor h g => h.PointWise ∧ g.PointWise

/-- Membership in the mathematical set the history denotes (relevant for `i < size`). -/
def Hist.mem : Hist → Nat → Bool
  | .off, _ => false
  | .on, _ => true
  | .setOn h n, i => if i = n then true else h.mem i
  | .setOff h n, i => if i = n then false else h.mem i
  | .toggle h n, i => if i = n then !h.mem i else h.mem i
  | .toggleAll h, i => !h.mem i
  | .and h g, i => h.mem i && g.mem i
  | .or h g, i => h.mem i || g.mem i
  | .diff h g, i => h.mem i && !g.mem i
  | .xor h g, i => h.mem i ^^ g.mem i

/-- The mask the code computes for the history. -/
def Hist.exec (size : Nat) : Hist → Option (List W)
  | .off => some (setOffAll size)
  | .on => some (setOnAll size)
  | .setOn h n => (h.exec size).bind (BitMask.setOn · n)
  | .setOff h n => (h.exec size).bind (BitMask.setOff · n)
  | .toggle h n => (h.exec size).bind (BitMask.toggle · n)
  | .toggleAll h => (h.exec size).map BitMask.toggleAll
  | .and h g => (h.exec size).bind fun a => (g.exec size).map fun b => BitMask.and a b
  | .or h g => (h.exec size).bind fun a => (g.exec size).map fun b => BitMask.or a b
  | .diff h g => (h.exec size).bind fun a => (g.exec size).map fun b => BitMask.diff a b
  | .xor h g => (h.exec size).bind fun a => (g.exec size).map fun b => BitMask.xor a b

/-- Number of members below `k`. -/
def Hist.card (h : Hist) (k : Nat) : Nat := (List.range k).countP h.mem

end Verif.BitMask
