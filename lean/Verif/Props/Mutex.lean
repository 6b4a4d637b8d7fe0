import Verif.Proof.Mutex
/-! Property C32: mutual exclusion of `Mutex`. -/
namespace Verif.Mutex

/-- In every interleaving of any number of threads at most one thread is inside.  Partial: the parking
lot is taken to let sleepers continue at arbitrary times; its own memory error with two sleepers is
`Verif.ParkingLot.two_waiters_violated`. -/
theorem mutex_exclusion_partial (l : List (Nat × Choice)) (s : St) (h : run init l = some s) (t u : Nat)
    (ht : Inside (s.pc t)) (hu : Inside (s.pc u)) : t = u := (inv_run l inv_init h).one t u ht hu

/-- The mutex word tells whether a thread is inside: `1` if so, `0` if not. -/
theorem mutex_word (l : List (Nat × Choice)) (s : St) (h : run init l = some s) :
    (s.word = 1 ∧ ∃ t, Inside (s.pc t)) ∨ (s.word = 0 ∧ ∀ t, ¬ Inside (s.pc t)) := by
  have hi := inv_run l inv_init h
  rcases hi.word with hw | hw
  · refine .inr ⟨hw, fun t ht => ?_⟩
    have := hi.locked.2 ⟨t, ht⟩
    rw [hw] at this
    exact absurd this (by decide)
  · exact .inl ⟨hw, hi.locked.1 hw⟩

/-- When nobody is inside, a thread that calls `lock` or `try_lock`, reads the current value and is not
disturbed gets in. -/
theorem mutex_free_available (l : List (Nat × Choice)) (s : St) (h : run init l = some s)
    (hf : ∀ t, ¬ Inside (s.pc t)) (t : Nat) (ht : s.pc t = .out) (call : Call) (hc : call ≠ .unlock) :
    ∃ s', run s [(t, ⟨call, s.word, false⟩), (t, ⟨call, 0, false⟩)] = some s' ∧ s'.pc t = .holds := by
  have hw : s.word = 0 := by
    rcases mutex_word l s h with ⟨_, u, hu⟩ | ⟨hw, _⟩
    · exact absurd hu (hf u)
    · exact hw
  cases call with
  | unlock => exact absurd rfl hc
  | lock =>
    refine ⟨⟨1, fun u => if u = t then .holds else if u = t then .lockCas0 0 else s.pc u⟩, ?_, by simp⟩
    simp [run, St.step, step, ht, hw, cas, kMask]
  | tryLock =>
    refine ⟨⟨1, fun u => if u = t then .holds else if u = t then .tryLoop 0 else s.pc u⟩, ?_, by simp⟩
    simp [run, St.step, step, ht, hw, cas, kMask]

/-- A thread that holds the mutex, reads the current value and is not disturbed gives it back: the word
is `0` again. -/
theorem mutex_unlock_frees (l : List (Nat × Choice)) (s : St) (h : run init l = some s) (t : Nat)
    (ht : s.pc t = .holds) :
    ∃ s', run s [(t, ⟨.unlock, s.word, false⟩), (t, ⟨.unlock, 0, false⟩), (t, ⟨.unlock, 0, false⟩)] = some s' ∧
      s'.word = 0 ∧ s'.pc t = .out := by
  have hw : s.word = 1 := (inv_run l inv_init h).locked.2 ⟨t, by rw [ht]; trivial⟩
  refine ⟨⟨0, fun u => if u = t then .out else if u = t then .unpark else
    if u = t then .unlockCas 1 else s.pc u⟩, ?_, rfl, by simp⟩
  simp [run, St.step, step, ht, hw, cas, kMask]

/-! Two threads: one inside, the other has read `0` before and fails. -/

example : ∃ s, run init [(0, ⟨.lock, 0, false⟩), (1, ⟨.lock, 0, false⟩), (0, ⟨.lock, 0, false⟩),
    (1, ⟨.lock, 1, false⟩)] = some s ∧ s.pc 0 = .holds ∧ s.pc 1 = .retry 1 0 :=
  ⟨_, rfl, by decide, by decide⟩

end Verif.Mutex
