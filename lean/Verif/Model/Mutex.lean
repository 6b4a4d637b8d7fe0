/-!
Model of `Mutex` (`include/zensim/execution/ConcurrencyPrimitive.hpp`, lines 45-55, and
`ConcurrencyPrimitive.cpp`, lines 360-423): any number of threads interleave at the atomic accesses of
the 32-bit word.

The relaxed loads may return any value at all (this covers stale values under the C++ memory model); a
compare-exchange acts on the current value and may fail spuriously, reporting any value.  Sleeping in the
parking lot may end at any time (this covers wake-ups for the right and the wrong reason); the parking
lot itself is modelled in `Verif.Model.ParkingLot`.  Sleeping and yielding while spinning have no effect.
-/
namespace Verif.Mutex

abbrev Word := BitVec 32

/-- `_kMask`; hpp line 54. -/
def kMask : Word := 1

/-- Where a thread is. -/
inductive Pc
  /-- outside, not holding the mutex -/
  | out
  /-- `lock`, at the compare-exchange of line 363, having read `old` -/
  | lockCas0 (old : Word)
  /-- `lock`, at `mutex_lock_retry`, line 371 -/
  | retry (old : Word) (spin : Nat)
  /-- `lock`, at the compare-exchange of line 377 -/
  | markCas (old new : Word) (spin : Nat)
  /-- `lock`, at the park condition, line 383 -/
  | park (new : Word) (spin : Nat)
  /-- `lock`, asleep in the parking lot -/
  | asleep (spin : Nat)
  /-- `lock`, at the load of line 391 -/
  | reload (spin : Nat)
  /-- `lock`, at the compare-exchange of line 396 -/
  | lockCas (old : Word) (spin : Nat)
  /-- `try_lock`, in the loop of lines 418-421, having read `old` -/
  | tryLoop (old : Word)
  /-- `lock` or a successful `try_lock` has returned -/
  | holds
  /-- `unlock`, at the compare-exchange of line 407 -/
  | unlockCas (old : Word)
  /-- `unlock`, waking a waiter, lines 410-413 -/
  | unpark
deriving DecidableEq, Repr

/-- Calls a thread may start. -/
inductive Call
  | lock
  | tryLock
  | unlock
deriving DecidableEq

/-- What the environment chooses for a step: the call to start, the value a load (or failed
compare-exchange) reports, and whether a compare-exchange fails spuriously. -/
structure Choice where
  call : Call
  read : Word
  spurious : Bool

/-- `compare_exchange_weak(old, new)`: success and the word afterwards. -/
def cas (c : Choice) (w old new : Word) : Bool × Word :=
  if w = old ∧ c.spurious = false then (true, new) else (false, w)

/-- One atomic step of a thread at `pc` with the word equal to `w`.  `none`: the thread has no such step
(`unlock` is called only by a thread that holds the mutex, `lock` and `try_lock` only by one that does
not). -/
def step (c : Choice) (w : Word) : Pc → Option (Word × Pc)
  | .out =>
    match c.call with
    | .lock => some (w, if c.read = 0 then .lockCas0 c.read else .retry c.read 0)
    | .tryLock => some (w, .tryLoop c.read)
    | .unlock => none
  | .lockCas0 old =>
    let (ok, w) := cas c w old (old ||| kMask)
    some (w, if ok then .holds else .retry c.read 0)
  | .retry old spin =>
    if old &&& kMask ≠ 0 then
      if spin + 1 > 1024 then
        let new := old ||| kMask
        some (w, if new ≠ old then .markCas old new (spin + 1) else .park new (spin + 1))
      else some (w, .reload (spin + 1))
    else some (w, .lockCas old spin)
  | .markCas old new spin =>
    let (ok, w) := cas c w old new
    some (w, if ok then .park new spin else .retry c.read spin)
  | .park new spin => some (w, if w = new then .asleep spin else .reload spin)
  | .asleep spin => some (w, .reload spin)
  | .reload spin => some (w, .retry c.read spin)
  | .lockCas old spin =>
    let (ok, w) := cas c w old (old ||| kMask)
    some (w, if ok then .holds else .retry c.read spin)
  | .tryLoop old =>
    if old ≠ 0 then some (w, .out)
    else
      let (ok, w) := cas c w old (old ||| kMask)
      some (w, if ok then .holds else .tryLoop c.read)
  | .holds =>
    match c.call with
    | .unlock => some (w, .unlockCas c.read)
    | _ => none
  | .unlockCas old =>
    let (ok, w) := cas c w old (old &&& ~~~kMask)
    some (w, if ok then (if old &&& kMask ≠ 0 then .unpark else .out) else .unlockCas c.read)
  | .unpark => some (w, .out)

/-- The word and the threads. -/
structure St where
  word : Word
  pc : Nat → Pc

def init : St := ⟨0, fun _ => .out⟩

/-- Thread `t` takes a step. -/
def St.step (s : St) (t : Nat) (c : Choice) : Option St := do
  let (w, p) ← Mutex.step c s.word (s.pc t)
  return ⟨w, fun u => if u = t then p else s.pc u⟩

/-- An interleaving. -/
def run (s : St) : List (Nat × Choice) → Option St
  | [] => some s
  | (t, c) :: l => (s.step t c).bind fun s => run s l

end Verif.Mutex
