import Verif.Model.ParkingLot
/-!
Specification of a queue used by at most one waiting thread at a time: the waiter, if any, with its node,
key, lot, mask and whether it has been signalled.
-/
namespace Verif.ParkingLot

structure Waiter where
  id : Nat
  key : Nat
  lot : Nat
  data : Nat
  signaled : Bool
deriving DecidableEq

/-- Effect of the calls covered: `n` is the number of waiters so far.  `unpark` signals the waiter when
key and lot are its own and the callback asks for it. -/
inductive Effect : Nat → Option Waiter → Op → Nat → Option Waiter → Prop
  | skip (n : Nat) (w : Option Waiter) (key lot data : Nat) :
      Effect n w (.park key lot data false) n w
  | park (n key lot data : Nat) :
      Effect n none (.park key lot data true) (n + 1) (some ⟨n, key, lot, data, false⟩)
  | unpark (n : Nat) (w : Option Waiter) (key lot : Nat) (func : Nat → Control) :
      (∀ d, func d ≠ .removeContinue) →
      Effect n w (.unpark key lot func) n (w.map fun w =>
        { w with signaled := w.signaled || (w.key == key && w.lot == lot && (func w.data).removes) })
  | resume (n : Nat) (w : Waiter) : w.signaled = true → Effect n (some w) (.resume w.id) n none

/-- States after a history of such calls. -/
inductive Reach : St → Nat → Option Waiter → Prop
  | init : Reach init 0 none
  | call (op : Op) (s s' : St) (n n' : Nat) (w w' : Option Waiter) :
      Reach s n w → Effect n w op n' w' → step s op = some s' → Reach s' n' w'

/-- The threads waiting in the queue and whether they can go on. -/
structure Shows (s : St) (n : Nat) (w : Option Waiter) : Prop where
  fresh : s.fresh = n
  waiting : s.waiting = (w.map (·.id)).toList
  canResume : ∀ v, w = some v → ∃ s', resume v.id s = some (v.signaled, s')

end Verif.ParkingLot
