import Verif.Proof.RingBuffer
/-! # C01: the ring buffer keeps the newest elements in order -/
namespace Verif.RingBuffer

/-- C01: after any history, `size()` is the length of the bounded deque (hence at most the
capacity), `operator[](i)` is its `i`-th element, and `back()` its last element. -/
theorem ringBuffer_refines_deque {α} (n : Nat) (hn : 1 ≤ n) (ops : List (Op α)) :
    let r := run n ops
    let l := specRun n ops
    r.size = l.length ∧ l.length ≤ n ∧ (∀ i (h : i < l.length), get n r i = some l[i]) ∧
      (∀ h : l ≠ [], back r = some (l.getLast h)) := by
  intro r l
  rcases (by omega : n = 1 ∨ 2 ≤ n) with rfl | hn2
  · have R : Rel1 r l := rel1_run ops
    clear_value r l
    obtain ⟨len, le, tl, hget⟩ := R
    refine ⟨len, le, ?_, ?_⟩
    · intro i h
      have hi : i = 0 := by omega
      subst hi
      show r.buf ((0 + r.head).tmod 1) = _
      rw [Int.tmod_one]
      exact hget h
    · intro h
      have hpos : 0 < l.length := List.length_pos_iff.mpr h
      rw [back, tl, List.getLast_eq_getElem, hget hpos]
      congr 2
      omega
  · have R : Rel n r l := rel_run n hn2 ops
    clear_value r l
    obtain ⟨len, le, h0, h1, tl, hget⟩ := R
    refine ⟨len, le, ?_, ?_⟩
    · intro i h
      rw [get]
      rcases tmod_slot n r.head i h0 (by omega) (by omega) (Or.inl h1) with e | e
      · rw [e]; exact hget i h
      · omega
    · intro h
      have hpos : 0 < l.length := List.length_pos_iff.mpr h
      rw [back, tl, if_neg (by omega), List.getLast_eq_getElem,
        ← hget (l.length - 1) (by omega)]
      congr 2
      omega

/-- C01: for capacities of at least two every index the code computes stays in range, so no
`int` overflow can happen and every access is inside the storage. -/
theorem ringBuffer_indices_in_range {α} (n : Nat) (hn : 2 ≤ n) (ops : List (Op α)) :
    let r := run n ops
    0 ≤ r.head ∧ r.head < n ∧ 0 ≤ r.tail ∧ r.tail < n ∧ 0 ≤ r.size ∧ r.size ≤ n := by
  intro r
  have R : Rel n r (specRun n ops) := rel_run n hn ops
  clear_value r
  obtain ⟨len, le, h0, h1, tl, -⟩ := R
  have hr : 0 ≤ r.tail ∧ r.tail < n := by
    rw [tl]
    simp only [slot]
    split <;> split <;> omega
  exact ⟨h0, h1, hr.1, hr.2, by omega, by omega⟩

/-- C01, violated bound: with capacity one the head index is never wrapped, it equals the number of
consecutive pushes, so it exceeds every `int` eventually (signed overflow, undefined behaviour). -/
theorem ringBuffer1_head_unbounded_violated {α} (x : α) (k : Nat) :
    (run 1 (List.replicate (k + 1) (Op.push x))).head = k + 1 := by
  have hd : ∀ r : RB α, r.size = 1 → 1 ≤ r.head → (step 1 r (Op.push x)).head = r.head + 1 := by
    intro r hs hh
    simp [step, push, incTail, incHead, hs]
    omega
  have key : ∀ k (r : RB α), r.size = 1 → r.tail = 0 → 1 ≤ r.head →
      ((List.replicate k (Op.push x)).foldl (step 1) r).head = r.head + k := by
    intro k
    induction k with
    | zero => intro r _ _ _; simp
    | succ k ih =>
      intro r hs ht hh
      rw [List.replicate_succ, List.foldl_cons, ih]
      · rw [hd r hs hh]; omega
      · simp [step, push, incTail, incHead, hs]
      · simp [step, push, incTail, incHead, hs, ht]
      · rw [hd r hs hh]; omega
  rw [run, List.replicate_succ, List.foldl_cons, key]
  · simp [step, push, init, incTail]; omega
  · simp [step, push, init, incTail]
  · simp [step, push, init, incTail]
  · simp [step, push, init, incTail]

example : specRun 2 [Op.push 1, Op.push 2, Op.push 3, Op.pop, Op.push 4] = [2, 4] := rfl
example : (run 2 [Op.push 1, Op.push 2, Op.push 3, Op.pop, Op.push 4]).size = 2 := rfl

end Verif.RingBuffer
