import Verif.Proof.Atomics
/-! Property C34: the read-modify-write helpers are linearizable. -/
namespace Verif.Atomics

variable {α : Type} [DecidableEq α]

/-- In every interleaving of any number of threads, the calls in the order in which they finished form a
legal sequential history from the initial to the current value (each returns the value immediately
before its own effect, each takes effect once), and every thread finishes its calls in program order.
Holds when the values concerned are told apart by `!=`. -/
theorem atomics_linearizable_partial {A : Arith α} {D : α → Prop} (hA : Distinguishes A D) (x : α) (hx : D x)
    (todo : Nat → List (Call α)) (hD : ∀ t, ∀ c ∈ todo t, c.Stays A D) (l : List Nat) :
    let s := run A (init x todo) l
    Legal A x s.done s.mem ∧ ∀ t, finished s t ++ s.todo t = todo t :=
  let h := inv_run hA hx hD l
  ⟨h.legal, h.prog⟩

/-- Integers (any type whose `!=` is inequality of bit patterns): no restriction. -/
theorem atomics_linearizable_int {A : Arith α} (hA : ∀ a b, A.ne a b = true ↔ a ≠ b) (x : α)
    (todo : Nat → List (Call α)) (l : List Nat) :
    let s := run A (init x todo) l
    Legal A x s.done s.mem ∧ ∀ t, finished s t ++ s.todo t = todo t := by
  refine atomics_linearizable_partial (D := fun _ => True) ⟨?_, ?_⟩ x trivial todo
    (fun _ _ _ _ _ => trivial) l
  · intro a v _ _
    cases h : A.ne a a
    · rfl
    · exact absurd rfl ((hA a a).1 h)
  · intro a b v _ _ _ hab
    exact (hA a b).2 hab

/-- `float`: `atomic_max`, `atomic_min`, `atomic_exch` and `atomic_cas` whenever negative zero neither is
the initial value nor occurs among the arguments (NaN and infinities may). -/
theorem atomics_linearizable_f32_partial (add : BitVec 32 → BitVec 32 → BitVec 32) (x : BitVec 32)
    (hx : x ≠ 0x80000000#32) (todo : Nat → List (Call (BitVec 32)))
    (hc : ∀ t, ∀ c ∈ todo t, (∃ v, v ≠ 0x80000000#32 ∧ (c = .max v ∨ c = .min v ∨ c = .exch v)) ∨
      ∃ e d, d ≠ 0x80000000#32 ∧ c = .cas e d) (l : List Nat) :
    let s := run (f32 add) (init x todo) l
    Legal (f32 add) x s.done s.mem ∧ ∀ t, finished s t ++ s.todo t = todo t := by
  refine atomics_linearizable_partial (f32_distinguishes add) x hx todo ?_ l
  intro t c h y hy
  rcases hc t c h with ⟨v, hv, rfl | rfl | rfl⟩ | ⟨e, d, hd, rfl⟩
  · simp only [Call.apply]; split <;> assumption
  · simp only [Call.apply]; split <;> assumption
  · exact hv
  · simp only [Call.apply]; split <;> assumption

/-- When all threads have finished, the value is the initial one with all requested calls applied in some
order that keeps each thread's own order. -/
theorem atomics_final {A : Arith α} (hA : ∀ a b, A.ne a b = true ↔ a ≠ b) (x : α)
    (todo : Nat → List (Call α)) (l : List Nat) (hdone : ∀ t, (run A (init x todo) l).todo t = []) :
    ∃ order : List (Nat × Call α),
      (run A (init x todo) l).mem = order.foldl (fun z c => c.2.apply A z) x ∧
      ∀ t, (order.filter (·.1 == t)).map (·.2) = todo t := by
  obtain ⟨h1, h2⟩ := atomics_linearizable_int hA x todo l
  refine ⟨(run A (init x todo) l).done.map fun e => (e.1, e.2.1), ?_, ?_⟩
  · rw [legal_foldl h1, List.foldl_map, List.foldl_map]
  · intro t
    have := h2 t
    rw [hdone t, List.append_nil] at this
    rw [← this, finished, List.filter_map, List.map_map]
    rfl

/-- Concurrent additions by any number of threads (at most `n` of which have something to add): the total
is exact. -/
theorem atomic_add_total (x : BitVec 32) (args : Nat → List (BitVec 32)) (n : Nat)
    (hn : ∀ t, n ≤ t → args t = []) (l : List Nat)
    (hdone : ∀ t, (run i32 (init x fun t => (args t).map .add) l).todo t = []) :
    (run i32 (init x fun t => (args t).map .add) l).mem =
      x + ((List.range n).map fun t => (args t).sum).sum := by
  obtain ⟨order, h1, h2⟩ := atomics_final i32_ne x _ l hdone
  rw [h1]
  exact add_order x args n hn order h2

/-- `float`: a thread in `atomic_max` is overtaken by one that replaces `+0` by `-0`: it takes the failed
exchange for a success, and its argument `1.0f` is lost. -/
theorem atomic_max_negative_zero_violated (add : BitVec 32 → BitVec 32 → BitVec 32) :
    let todo : Nat → List (Call (BitVec 32)) := fun t =>
      if t = 0 then [.max 0x3f800000#32] else if t = 1 then [.exch 0x80000000#32] else []
    let s := run (f32 add) (init 0#32 todo) [0, 1, 0]
    (∀ t, s.todo t = []) ∧ s.mem = 0x80000000#32 := by
  have h1 : (f32 add).lt 0#32 0x3f800000#32 = true := f32_lt_example
  have h2 : (f32 add).ne 0x80000000#32 0#32 = false := f32_ne_example
  have hs : run (f32 add) (init 0#32 fun t =>
      if t = 0 then [.max 0x3f800000#32] else if t = 1 then [.exch 0x80000000#32] else []) [0, 1, 0] =
      ⟨0x80000000#32, fun t => if t = 0 then [] else if t = 1 then [] else [],
        fun _ => .start, [(1, .exch 0x80000000#32, 0#32), (0, .max 0x3f800000#32, 0x80000000#32)]⟩ := by
    simp [run, init, step, access, maxTest, cas, upd, h1, h2]
    constructor
    · funext j
      by_cases h0 : j = 0
      · simp [upd, h0]
      · by_cases h1 : j = 1 <;> simp [upd, h0, h1]
    · funext j
      by_cases h0 : j = 0 <;> simp [upd, h0]
  simp only [hs]
  refine ⟨fun t => ?_, trivial⟩
  split
  · rfl
  · split <;> rfl

/-! Two threads whose compare-exchange loops collide. -/

example : let s := run i32 (init 5 fun t => if t < 2 then [.add 3] else []) [0, 1, 0, 1, 1]
    s.mem = 11 ∧ s.done.length = 2 := by decide

end Verif.Atomics
