import Verif.Proof.Queue
/-! Property C35: `threadsafe_queue` is a first-in first-out queue. -/
namespace Verif.Queue

variable {α : Type}

/-- Every interleaving of any number of threads runs without undefined behaviour, and the calls, in the
order of their effects, are a history of a sequential first-in first-out queue: `try_pop` fails and
`empty` holds only when the queue is empty at that point. -/
theorem queue_fifo (l : List (Nat × Choice α)) : ∃ s, run init l = some s ∧ Fifo [] s.log s.q := by
  obtain ⟨s, h1, h2⟩ := inv_run inv_init l
  exact ⟨s, h1, h2.fifo⟩

/-- The calls a thread has completed and the events it produced correspond one to one and in order: each
`push` inserts its value once, each `wait_and_pop` takes one element, each `try_pop` takes one element or
finds the queue empty. -/
theorem queue_calls (l : List (Nat × Choice α)) (s : St α) (h : run init l = some s) (t : Nat)
    (ht : s.pc t = .idle) : AllAnswered (callsOf s t) (eventsOf s t) := by
  have := served_run inv_init (fun _ => .inl ⟨trivial, .nil⟩) l h t
  rw [ht] at this
  rcases this with ⟨_, h1⟩ | ⟨_, _, _, hc, _⟩
  · exact h1
  · exact hc.elim

/-- The values popped so far followed by those in the queue are exactly the values pushed so far, in the
order pushed: nothing is lost, duplicated, invented or reordered. -/
theorem queue_values (l : List (Nat × Choice α)) (s : St α) (h : run init l = some s) :
    pops s.log ++ s.q = pushes s.log := by
  obtain ⟨s', h1, h2⟩ := inv_run (α := α) inv_init l
  rw [h] at h1
  cases h1
  have := fifo_values h2.fifo
  simpa using this.symm

/-- No wake-up is lost: when a thread sleeps in `wait_and_pop` while there are elements, some other thread
is about to take one or to wake a thread; there are at least as many such threads as elements. -/
theorem queue_no_lost_wakeup (l : List (Nat × Choice α)) (s : St α) (h : run init l = some s) (t : Nat)
    (ht : s.pc t = .asleep) :
    ∃ L : List Nat, L.Nodup ∧ (∀ u ∈ L, Active (s.pc u)) ∧ s.q.length ≤ L.length := by
  obtain ⟨s', h1, h2⟩ := inv_run (α := α) inv_init l
  rw [h] at h1
  cases h1
  refine live_run inv_init (fun e => absurd rfl e) l h ?_
  intro e
  have := (h2.asleep t).2 ht
  rw [e] at this
  cases this

/-- In particular, when every thread sleeps or has returned, the sleepers wait for a reason. -/
theorem queue_quiet_empty (l : List (Nat × Choice α)) (s : St α) (h : run init l = some s)
    (hq : ∀ t, s.pc t = .asleep ∨ s.pc t = .idle) (t : Nat) (ht : s.pc t = .asleep) : s.q = [] := by
  obtain ⟨L, _, h2, h3⟩ := queue_no_lost_wakeup l s h t ht
  cases hL : L with
  | nil => rw [hL] at h3; exact List.eq_nil_of_length_eq_zero (by simpa using h3)
  | cons u L' =>
    have := h2 u (by rw [hL]; simp)
    rcases hq u with e | e <;> rw [e] at this <;> exact this.elim

/-- Two threads never touch the `std::queue` at the same time: whoever is between locking and unlocking
is the owner of the mutex. -/
theorem queue_exclusive (l : List (Nat × Choice α)) (s : St α) (h : run init l = some s) (t u : Nat)
    (ht : Locked (s.pc t)) (hu : Locked (s.pc u)) : t = u := by
  obtain ⟨s', h1, h2⟩ := inv_run (α := α) inv_init l
  rw [h] at h1
  cases h1
  exact (owner_unique h2 ht hu).symm

/-! A consumer falls asleep, a producer pushes and wakes it, and it takes the element. -/

def demo : List (Nat × Choice Nat) :=
  let w : Choice Nat := ⟨.waitPop, 0⟩
  let p : Choice Nat := ⟨.push 9, 0⟩
  [(0, w), (0, w), (0, w), (1, p), (1, p), (1, p)]

example : (run init demo).map (fun s => (s.q, s.waiters)) = some ([9], [0]) := by decide

example : (run init (demo ++ [(1, ⟨.push 9, 0⟩), (1, ⟨.push 9, 0⟩), (0, ⟨.waitPop, 0⟩), (0, ⟨.waitPop, 0⟩),
    (0, ⟨.waitPop, 0⟩), (0, ⟨.waitPop, 0⟩)])).map (fun s => (s.q, pops s.log)) = some ([], [9]) := by decide

end Verif.Queue
