/-!
Model of `threadsafe_queue` (`include/zensim/execution/Concurrency.h`, lines 23-92): any number of threads
interleave at every operation on the `std::mutex`, the `std::queue` and the `std::condition_variable`.

Locking is possible only while the mutex is free.  `data_cond.wait` releases the mutex and joins the
waiters in one step; a waiter leaves when notified or spuriously, locks the mutex again and tests again.
`notify_one` wakes a waiter chosen by the environment, if there is one.  `front` and `pop` on an empty
`std::queue` are undefined behaviour: the outcome `none` of `step`.  Copying elements does not throw.
The overloads of `push`, `try_pop` and `wait_and_pop` differ in how the value is passed only.
-/
namespace Verif.Queue

variable {α : Type}

/-- Calls. -/
inductive Call (α : Type)
  | push (v : α)
  | tryPop
  | waitPop
  | empty

/-- Where a thread is. -/
inductive Pc (α : Type)
  | idle
  /-- about to lock; lines 36, 47, 68, 89 -/
  | lock (c : Call α)
  /-- `data_queue.push`; line 37 -/
  | pushing (v : α)
  /-- `notify_one`; line 38 -/
  | notify
  /-- `data_queue.empty()` of `try_pop`; line 69 -/
  | tryTest
  /-- the predicate of `wait`; line 48 -/
  | waitTest
  /-- asleep in `wait` -/
  | asleep
  /-- woken in `wait`, about to lock again -/
  | relock
  /-- `data_queue.front()`; lines 49, 70 -/
  | front
  /-- `data_queue.pop()`; lines 50, 71 -/
  | pop (v : α)
  /-- `empty()`; line 90 -/
  | test
  /-- about to unlock and return -/
  | unlock

/-- What a call did, in the order of the effects on the `std::queue`. -/
inductive Event (α : Type)
  | pushed (t : Nat) (v : α)
  | popped (t : Nat) (v : α)
  /-- `try_pop` returned false, `empty` returned true -/
  | sawEmpty (t : Nat)
  /-- `empty` returned false -/
  | sawElements (t : Nat)

structure St (α : Type) where
  owner : Option Nat
  q : List α
  pc : Nat → Pc α
  /-- threads asleep on `data_cond` -/
  waiters : List Nat
  log : List (Event α)
  /-- calls started so far (ghost) -/
  calls : List (Nat × Call α)

def init : St α := ⟨none, [], fun _ => .idle, [], [], []⟩

/-- Functional update. -/
def upd {β : Type} (f : Nat → β) (i : Nat) (x : β) : Nat → β := fun j => if j = i then x else f j

/-- What the environment chooses: the call an idle thread starts, and the waiter `notify_one` wakes. -/
structure Choice (α : Type) where
  call : Call α
  wake : Nat

/-- Thread `t` continues at `p`. -/
def St.goto (s : St α) (t : Nat) (p : Pc α) : St α := { s with pc := upd s.pc t p }

/-- First program point after locking. -/
def afterLock : Call α → Pc α
  | .push v => .pushing v
  | .tryPop => .tryTest
  | .waitPop => .waitTest
  | .empty => .test

/-- Lock the mutex and go on; stays where it is while the mutex is taken. -/
def lockThen (s : St α) (t : Nat) (p : Pc α) : St α :=
  match s.owner with
  | none => { s.goto t p with owner := some t }
  | some _ => s

/-- `notify_one`. -/
def notifyOne (s : St α) (w : Nat) : St α :=
  if w ∈ s.waiters then { s.goto w .relock with waiters := s.waiters.erase w } else s

/-- One step of thread `t`. -/
def step (s : St α) (t : Nat) (c : Choice α) : Option (St α) :=
  match s.pc t with
  | .idle => some { s.goto t (.lock c.call) with calls := s.calls ++ [(t, c.call)] }
  | .lock call => some (lockThen s t (afterLock call))
  | .pushing v =>
    some { s.goto t .notify with q := s.q ++ [v], log := s.log ++ [.pushed t v] }
  | .notify =>
    -- the environment has to choose a waiter if there is one
    if s.waiters ≠ [] ∧ c.wake ∉ s.waiters then some s
    else some ((notifyOne s c.wake).goto t .unlock)
  | .tryTest =>
    if s.q = [] then some { s.goto t .unlock with log := s.log ++ [.sawEmpty t] }
    else some (s.goto t .front)
  | .waitTest =>
    if s.q = [] then some { s.goto t .asleep with owner := none, waiters := t :: s.waiters }
    else some (s.goto t .front)
  | .asleep =>
    -- spurious wake-up
    some { s.goto t .relock with waiters := s.waiters.erase t }
  | .relock => some (lockThen s t .waitTest)
  | .front =>
    match s.q with
    | [] => none
    | v :: _ => some (s.goto t (.pop v))
  | .pop v =>
    match s.q with
    | [] => none
    | _ :: q => some { s.goto t .unlock with q := q, log := s.log ++ [.popped t v] }
  | .test =>
    some { s.goto t .unlock with
      log := s.log ++ [if s.q = [] then .sawEmpty t else .sawElements t] }
  | .unlock => some { s.goto t .idle with owner := none }

def run (s : St α) : List (Nat × Choice α) → Option (St α)
  | [] => some s
  | (t, c) :: l => (step s t c).bind fun s => run s l

end Verif.Queue
