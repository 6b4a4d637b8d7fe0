import Verif.Proof.ParkingLot
/-! Property C33: waking waiters in the parking lot. -/
namespace Verif.ParkingLot

/-- While at most one thread at a time waits in the queue, without timeouts, and no callback asks to
remove and go on (`notify_all`), every call runs without undefined behaviour, and the waiter can go on
exactly when an `unpark` with its own key and lot asked for its removal.  Missing: two or more waiters,
timeouts and `notify_all`, where the code fails (below). -/
theorem unpark_single_partial {s : St} {n : Nat} {w : Option Waiter} (h : Reach s n w) :
    Shows s n w ∧ ∀ op n' w', Effect n w op n' w' →
      ∃ s', step s op = some s' ∧ Reach s' n' w' ∧ Shows s' n' w' := by
  have hi := reach_inv h
  refine ⟨inv_shows hi, fun op n' w' he => ?_⟩
  obtain ⟨s', h1, h2⟩ := step_spec hi he
  exact ⟨s', h1, .call op s s' n n' w w' h he h1, inv_shows h2⟩

/-- Waking one of two waiters on the same key deletes the node on which the other one is waiting. -/
theorem two_waiters_violated : ∃ s, run init [.park 5 0 1 true, .park 5 0 1 true] = some s ∧
    s.waiting = [1, 0] ∧ unpark 5 0 one s = none := ⟨_, rfl, rfl, rfl⟩

/-- Waking the only waiter on a key deletes the node of a waiter on another key in the same queue. -/
theorem other_key_violated : ∃ s, run init [.park 5 0 1 true, .park 7 0 1 true] = some s ∧
    s.waiting = [1, 0] ∧ unpark 7 0 one s = none := ⟨_, rfl, rfl, rfl⟩

/-- A single thread that waits twice, woken by `notify_all` each time: the second `notify_all` goes on
with a node it has just deleted. -/
theorem notify_all_twice_violated :
    ∃ s, run init [.park 5 0 1 true, .unpark 5 0 all, .resume 0, .park 5 0 1 true] = some s ∧
      s.waiting = [1] ∧ unpark 5 0 all s = none := ⟨_, rfl, rfl, rfl⟩

/-- The timeout of the only waiter reads its deleted node. -/
theorem timeout_violated : ∃ s, run init [.park 5 0 1 true] = some s ∧ timeout 0 s = none :=
  ⟨_, rfl, rfl⟩

/-- A waiter woken and gone stays in the queue, and its node is not freed. -/
theorem woken_node_kept_violated :
    ∃ s, run init [.park 5 0 1 true, .unpark 5 0 one, .resume 0] = some s ∧ s.waiting = [] ∧
      s.head = some 0 ∧ s.heap 0 ≠ none := ⟨_, rfl, rfl, rfl, by decide⟩

/-! A thread waits twice, is woken by the matching call only, and can go on. -/

example : ∃ s, Reach s 2 (some ⟨1, 6, 0, 1, true⟩) := by
  refine ⟨_, .call (.unpark 6 0 one) _ _ 2 _ (some ⟨1, 6, 0, 1, false⟩) _
    (.call (.unpark 5 0 one) _ _ 2 _ (some ⟨1, 6, 0, 1, false⟩) _
      (.call (.park 6 0 1 true) _ _ 1 _ none _ (.call (.resume 0) _ _ 1 _ (some ⟨0, 5, 0, 1, true⟩) _
        (.call (.unpark 5 0 one) _ _ 1 _ (some ⟨0, 5, 0, 1, false⟩) _
          (.call (.park 5 0 1 true) _ _ 0 _ none _ .init (.park 0 5 0 1) rfl)
          (.unpark 1 (some ⟨0, 5, 0, 1, false⟩) 5 0 one (by simp [one])) rfl)
        (.resume 1 ⟨0, 5, 0, 1, true⟩ rfl) rfl) (.park 1 6 0 1) rfl)
      (.unpark 2 (some ⟨1, 6, 0, 1, false⟩) 5 0 one (by simp [one])) rfl)
    (.unpark 2 (some ⟨1, 6, 0, 1, false⟩) 6 0 one (by simp [one])) rfl⟩

end Verif.ParkingLot
