import Verif.Proof.Scan
/-!
C21, C22, C23: parallel scans and reductions.  `Runs T phases s s'` ranges over all interleavings of
`T` threads between barriers.
-/
namespace Verif.Scan
open Verif.Phase

/-- C21 (partial): for an associative and *commutative* operation the parallel inclusive scan gives
`x0 op ... op xi` at every position, for every number of threads and every schedule, in place or not,
and touches nothing else.  Missing: operations that do not commute (see the violation below). -/
theorem inclusive_scan_parallel_partial {α : Type} (op : α → α → α)
    (assoc : ∀ a b c, op (op a b) c = op a (op b c)) (comm : ∀ a b, op a b = op b a)
    (inPlace : Bool) (x : Nat → α) (n T : Nat) (hT : 0 < T) (s s' : Mem α)
    (input : ∀ i, i < n → s (rd inPlace i) = x i)
    (run : Runs T (inclusiveScan op inPlace n T) s s') :
    (∀ i, i < n → s' (.out i) = inclSpec op x i) ∧
    (∀ i, n ≤ i → s' (.out i) = s (.out i)) ∧ (∀ i, s' (.src i) = s (.src i)) :=
  inclusive_run op assoc comm inPlace x n T hT s s' input run

/-- The parallel scan always finishes: there is a run from every memory. -/
theorem inclusive_scan_has_run {α : Type} (op : α → α → α) (inPlace : Bool) (n T : Nat) (s : Mem α) :
    ∃ s', Runs T (inclusiveScan op inPlace n T) s s' := runs_exists _ _ _

example : ∃ s', Runs 3 (inclusiveScan (· + ·) true 8 3) (fun | .out i => i + 1 | _ => 0) s' ∧
    s' (.out 7) = 36 := by
  obtain ⟨s', h⟩ := inclusive_scan_has_run (· + ·) true 8 3
    (fun | .out i => i + 1 | _ => (0 : Nat))
  refine ⟨s', h, ?_⟩
  rw [(inclusive_scan_parallel_partial (· + ·) Nat.add_assoc Nat.add_comm true (fun i => i + 1) 8 3
    (by omega) _ _ (fun i _ => rfl) h).1 7 (by omega)]
  decide

/-- C21 fails for an associative operation that does not commute: with two threads and
`op a b = a` position 1 gets `x1` instead of `x0 op x1 = x0`. -/
theorem inclusive_scan_noncommutative_violated :
    ∃ (op : Nat → Nat → Nat) (s s' : Mem Nat), (∀ a b c, op (op a b) c = op a (op b c)) ∧
      Runs 2 (inclusiveScan op false 2 2) s s' ∧
      s' (.out 1) ≠ inclSpec op (fun i => s (.src i)) 1 := by
  refine ⟨fun a _ => a, (fun | .src i => i | _ => 0), _, fun _ _ _ => rfl, runs_seqRun _ _ _, ?_⟩
  simp only [inclusiveScan, strideLoop, strides_two]
  decide

/-- C21, sequential policy: the inclusive scan gives `x0 op ... op xi` for every operation, in place
or not. -/
theorem inclusive_scan_sequential {α : Type} (op : α → α → α) (inPlace : Bool) (x : Nat → α)
    (n : Nat) (s : Mem α) (input : ∀ i, i < n → s (rd inPlace i) = x i) :
    (∀ i, i < n → exec (seqInclusive op inPlace n) s (.out i) = inclSpec op x i) ∧
    (∀ i, n ≤ i → exec (seqInclusive op inPlace n) s (.out i) = s (.out i)) ∧
    (∀ i, exec (seqInclusive op inPlace n) s (.src i) = s (.src i)) :=
  seqInclusive_run op inPlace x n s input

example : exec (seqInclusive (fun a b : Int => a - b) true 3)
    (fun | .out i => (10 : Int) * i + 1 | _ => 0) (.out 2) = 1 - 11 - 21 := by decide

/-- C22 (partial): for an associative and commutative operation with identity `e`, started with
`init = e` and with an output range apart from the input, the parallel exclusive scan gives
`e op x0 op ... op x(i-1)`.  Missing: other initial values, in-place use, operations that do not
commute (see the violations below). -/
theorem exclusive_scan_parallel_partial {α : Type} (op : α → α → α)
    (assoc : ∀ a b c, op (op a b) c = op a (op b c)) (comm : ∀ a b, op a b = op b a)
    (e : α) (ident : ∀ a, op e a = a) (x : Nat → α) (n T : Nat) (hT : 0 < T) (s s' : Mem α)
    (input : ∀ i, i < n → s (.src i) = x i)
    (run : Runs T (exclusiveScan op e false n T) s s') :
    (∀ i, i < n → s' (.out i) = exclSpec op e x i) ∧
    (∀ i, n ≤ i → s' (.out i) = s (.out i)) ∧ (∀ i, s' (.src i) = s (.src i)) :=
  exclusive_run op assoc comm e ident x n T hT s s' input run

example : ∃ s', Runs 3 (exclusiveScan (· + ·) 0 false 8 3) (fun | .src i => i + 1 | _ => 0) s' ∧
    s' (.out 7) = 28 := by
  obtain ⟨s', h⟩ := runs_exists 3 (exclusiveScan (· + ·) 0 false 8 3)
    (fun | .src i => i + 1 | _ => (0 : Nat))
  refine ⟨s', h, ?_⟩
  rw [(exclusive_scan_parallel_partial (· + ·) Nat.add_assoc Nat.add_comm 0 Nat.zero_add
    (fun i => i + 1) 8 3 (by omega) _ _ (fun i _ => rfl) h).1 7 (by omega)]
  decide

/-- C22 fails for other initial values even with one thread: scanning `[5, 7]` with `+` from `100`
leaves `5` instead of `105` at position 1. -/
theorem exclusive_scan_init_violated :
    ∃ s s' : Mem Nat, Runs 1 (exclusiveScan (· + ·) 100 false 2 1) s s' ∧
      exclSpec (· + ·) 100 (fun i => s (.src i)) 1 = 105 ∧ s' (.out 1) = 5 := by
  refine ⟨(fun | .src 0 => 5 | .src _ => 7 | _ => 0), _, runs_seqRun _ _ _, by decide, ?_⟩
  simp only [exclusiveScan, strideLoop, show strides 1 1 = [] by rw [strides, dif_neg (by omega)]]
  decide

/-- C22 fails in place: scanning `[5, 7]` in place with `+` from `0` gives `[0, 0]`. -/
theorem exclusive_scan_in_place_violated :
    ∃ s s' : Mem Nat, Runs 1 (exclusiveScan (· + ·) 0 true 2 1) s s' ∧
      exclSpec (· + ·) 0 (fun i => s (.out i)) 1 = 5 ∧ s' (.out 1) = 0 := by
  refine ⟨(fun | .out 0 => 5 | .out _ => 7 | _ => 0), _, runs_seqRun _ _ _, by decide, ?_⟩
  simp only [exclusiveScan, strideLoop, show strides 1 1 = [] by rw [strides, dif_neg (by omega)]]
  decide

/-- C22, sequential policy, separate output range: correct for every operation and initial value. -/
theorem exclusive_scan_sequential {α : Type} (op : α → α → α) (init : α) (x : Nat → α) (n : Nat)
    (s : Mem α) (input : ∀ i, i < n → s (.src i) = x i) :
    (∀ i, i < n → exec (seqExclusive op init false n) s (.out i) = exclSpec op init x i) ∧
    (∀ i, n ≤ i → exec (seqExclusive op init false n) s (.out i) = s (.out i)) ∧
    (∀ i, exec (seqExclusive op init false n) s (.src i) = s (.src i)) :=
  seqExclusive_run op init x n s input

example : exec (seqExclusive (fun a b : Int => a - b) 5 false 3)
    (fun | .src i => (10 : Int) * i + 1 | _ => 0) (.out 2) = 5 - 1 - 11 := by decide

/-- C22, sequential policy in place: `[5, 7]` from `0` gives `[0, 0]`. -/
theorem exclusive_scan_sequential_in_place_violated :
    ∃ s : Mem Nat, exclSpec (· + ·) 0 (fun i => s (.out i)) 1 = 5 ∧
      exec (seqExclusive (· + ·) 0 true 2) s (.out 1) = 0 :=
  ⟨(fun | .out 0 => 5 | .out _ => 7 | _ => 0), by decide, by decide⟩

/-- C23 (partial): for an associative operation (commuting or not) started from a right identity,
the parallel reduction gives `e op x0 op ... op x(n-1)` for every number of threads and schedule.
Missing: other initial values (see the violation below). -/
theorem reduce_parallel_partial {α : Type} (op : α → α → α)
    (assoc : ∀ a b c, op (op a b) c = op a (op b c)) (e : α) (ident : ∀ a, op a e = a)
    (x : Nat → α) (n T : Nat) (hT : 0 < T) (s s' : Mem α)
    (input : ∀ i, i < n → s (.src i) = x i) (run : Runs T (reducePar op e n T) s s') :
    s' (.out 0) = exclSpec op e x n :=
  reduce_run op assoc e ident x n T hT s s' input run

example : ∃ s', Runs 3 (reducePar (· ++ ·) "" 4 3)
    (fun | .src i => toString i | _ => "") s' ∧ s' (.out 0) = "0123" := by
  obtain ⟨s', h⟩ := runs_exists 3 (reducePar (· ++ ·) "" 4 3)
    (fun | .src i => toString i | _ => "")
  refine ⟨s', h, ?_⟩
  rw [reduce_parallel_partial (· ++ ·) (fun a b c => String.append_assoc) "" (fun a => String.append_empty)
    (fun i => toString i) 4 3 (by omega) _ _ (fun i _ => rfl) h]
  rfl

/-- C23 fails for other initial values: with two threads `100` is added twice. -/
theorem reduce_init_violated :
    ∃ s s' : Mem Nat, Runs 2 (reducePar (· + ·) 100 2 2) s s' ∧
      exclSpec (· + ·) 100 (fun i => s (.src i)) 2 = 112 ∧ s' (.out 0) = 212 := by
  refine ⟨(fun | .src 0 => 5 | .src _ => 7 | _ => 0), _, runs_seqRun _ _ _, by decide, ?_⟩
  simp only [reducePar, strides_two]
  decide

/-- C23, sequential policy: correct for every operation and initial value. -/
theorem reduce_sequential {α : Type} (op : α → α → α) (init : α) (x : Nat → α) (n : Nat)
    (s : Mem α) (input : ∀ i, i < n → s (.src i) = x i) :
    exec (seqReduce op init n) s (.out 0) = exclSpec op init x n :=
  seqReduce_run op init x n s input

example : exec (seqReduce (fun a b : Int => a - b) 5 3)
    (fun | .src i => (10 : Int) * i + 1 | _ => 0) (.out 0) = 5 - 1 - 11 - 21 := by decide

end Verif.Scan
