import Verif.Model.Queue
/-! Specification: a sequential first-in first-out queue. -/
namespace Verif.Queue

variable {α : Type}

/-- The events replayed on a sequential queue lead from `q` to `q'`. -/
inductive Fifo : List α → List (Event α) → List α → Prop
  | nil (q : List α) : Fifo q [] q
  | pushed (q q' : List α) (l : List (Event α)) (t : Nat) (v : α) :
      Fifo (q ++ [v]) l q' → Fifo q (.pushed t v :: l) q'
  | popped (q q' : List α) (l : List (Event α)) (t : Nat) (v : α) :
      Fifo q l q' → Fifo (v :: q) (.popped t v :: l) q'
  | sawEmpty (q' : List α) (l : List (Event α)) (t : Nat) : Fifo [] l q' → Fifo [] (.sawEmpty t :: l) q'
  | sawElements (q q' : List α) (l : List (Event α)) (t : Nat) : q ≠ [] → Fifo q l q' →
      Fifo q (.sawElements t :: l) q'

/-- Values pushed, in order. -/
def pushes : List (Event α) → List α
  | [] => []
  | .pushed _ v :: l => v :: pushes l
  | _ :: l => pushes l

/-- Values popped, in order. -/
def pops : List (Event α) → List α
  | [] => []
  | .popped _ v :: l => v :: pops l
  | _ :: l => pops l

/-- The thread is going to take an element or to wake another thread, without waiting for anything but
the mutex. -/
def Active : Pc α → Prop
  | .relock => True
  | .waitTest => True
  | .front => True
  | .pop _ => True
  | .notify => True
  | _ => False

/-- The thread holds the mutex at this point. -/
def Locked : Pc α → Prop
  | .idle => False
  | .lock _ => False
  | .asleep => False
  | .relock => False
  | _ => True

/-- The thread an event belongs to. -/
def Event.thread : Event α → Nat
  | .pushed t _ => t
  | .popped t _ => t
  | .sawEmpty t => t
  | .sawElements t => t

/-- The event is a possible outcome of the call. -/
def Answers : Call α → Event α → Prop
  | .push v, .pushed _ w => v = w
  | .tryPop, .popped _ _ => True
  | .tryPop, .sawEmpty _ => True
  | .waitPop, .popped _ _ => True
  | .empty, .sawEmpty _ => True
  | .empty, .sawElements _ => True
  | _, _ => False

/-- Calls and events correspond one to one, in order. -/
inductive AllAnswered : List (Call α) → List (Event α) → Prop
  | nil : AllAnswered [] []
  | cons (c : Call α) (e : Event α) (cs : List (Call α)) (es : List (Event α)) :
      Answers c e → AllAnswered cs es → AllAnswered (c :: cs) (e :: es)

/-- Calls started by a thread, and its events. -/
def callsOf (s : St α) (t : Nat) : List (Call α) := (s.calls.filter (·.1 == t)).map (·.2)
def eventsOf (s : St α) (t : Nat) : List (Event α) := s.log.filter (·.thread == t)

end Verif.Queue
