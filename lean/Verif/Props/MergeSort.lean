import Verif.Proof.QuickSort
/-!
C26, C27: `merge_sort`, `merge_sort_pair`, `sort`, `sort_pair`.  `Runs T (…) s s'` holds for every run
of the parallel region with `T` threads, in any interleaving.  `at_ s false i` is element `i` of the
user's range.
-/
namespace Verif.MergeSort
open Verif.Phase Verif.Sort
open Verif.Scan (nwork st ed strides)

variable {α : Type} [Inhabited α]

/-! ### C26 -/

/-- Parallel merge sort sorts stably under every schedule if all threads that have elements finish
their local sort in the same one of the two buffers.  (`localFlip n T t` is the value of `flipped` in
thread `t` after its local sort; it depends only on the sizes.)  Missing for the full claim: the other
thread counts, where the claim is false, see `merge_sort_two_threads_violated`. -/
theorem merge_sort_parallel_partial {lt : α → α → Bool} (hl : StrictWeak lt) (n T : Nat) (hT : 0 < T)
    (same : ∀ t u, t < T → u < T → st n T t < n → st n T u < n → localFlip n T t = localFlip n T u)
    (s s' : Mem α) (run : Runs T (mergeSort lt n T) s s') :
    StableSort n (fun a b => lt a b = true) (at_ s false) (at_ s' false) ∧
      (∀ i, n ≤ i → at_ s' false i = at_ s false i) := by
  obtain ⟨h1, h2⟩ := mergeSort_run hl n T hT same s s' run
  exact ⟨h1.toStable, h2⟩

/-- In particular when the thread count divides the length. -/
theorem merge_sort_even_chunks_partial {lt : α → α → Bool} (hl : StrictWeak lt) (n T : Nat)
    (hT : 0 < T) (hdvd : T ∣ n) (s s' : Mem α) (run : Runs T (mergeSort lt n T) s s') :
    StableSort n (fun a b => lt a b = true) (at_ s false) (at_ s' false) ∧
      (∀ i, n ≤ i → at_ s' false i = at_ s false i) := by
  refine merge_sort_parallel_partial hl n T hT ?_ s s' run
  obtain ⟨k, rfl⟩ := hdvd
  have hw : nwork (T * k) T = k := by
    unfold nwork
    rw [show T * k + T - 1 = (T - 1) + T * k by omega, Nat.add_mul_div_left _ _ hT,
      Nat.div_eq_of_lt (by omega), Nat.zero_add]
  have hsz : ∀ t, t < T → ed (T * k) T t - st (T * k) T t = k := by
    intro t ht
    have h1 : k * t + k ≤ T * k := by
      have := Nat.mul_le_mul_left k (show t + 1 ≤ T from ht)
      rw [Nat.mul_add, Nat.mul_one, Nat.mul_comm k T] at this
      exact this
    unfold ed st
    rw [hw, if_neg (by omega)]
    omega
  intro t u ht hu _ _
  unfold localFlip
  rw [hsz t ht, hsz u hu]

/-- One thread (the region runs with one thread when the range has at most `256 * dop` elements). -/
theorem merge_sort_one_thread {lt : α → α → Bool} (hl : StrictWeak lt) (n : Nat)
    (s s' : Mem α) (run : Runs 1 (mergeSort lt n 1) s s') :
    StableSort n (fun a b => lt a b = true) (at_ s false) (at_ s' false) ∧
      (∀ i, n ≤ i → at_ s' false i = at_ s false i) :=
  merge_sort_even_chunks_partial hl n 1 (by decide) (Nat.one_dvd n) s s' run

/-- Every thread count has a run. -/
theorem merge_sort_has_run (lt : α → α → Bool) (n T : Nat) (s : Mem α) :
    ∃ s', Runs T (mergeSort lt n T) s s' := runs_exists _ _ _

/-- Sequential `merge_sort_pair`. -/
theorem merge_sort_pair_sequential {lt : α → α → Bool} (hl : StrictWeak lt) (n : Nat) (s : Mem α) :
    StableSort n (fun a b => lt a b = true) (at_ s false) (at_ (exec (seqMergeSort lt n) s) false) ∧
      (∀ i, n ≤ i → at_ (exec (seqMergeSort lt n) s) false i = at_ s false i) := by
  obtain ⟨h1, h2, _⟩ := localSort_spec hl 0 0 n s
  have fr : ∀ i, n ≤ i → at_ (exec (localSort lt 0 0 n) s) false i = at_ s false i := by
    intro i hi
    unfold at_
    rw [h2 (.arr false i) (fun hw => by have := hw.2; omega)]
  unfold seqMergeSort
  rw [exec_append]
  rw [Nat.sub_zero] at h1
  generalize exec (localSort lt 0 0 n) s = s1 at *
  cases hf : flipAfter (strides n 16) false with
  | false =>
    rw [hf] at h1
    exact ⟨h1.toStable, fr⟩
  | true =>
    rw [hf] at h1
    rw [if_pos rfl]
    have loop : ∀ m, let s2 := exec ((List.range m).map (fun k (s : Mem α) =>
        upd s (.arr false k) (.elt (at_ s true k)))) s1
        (∀ i, i < m → at_ s2 false i = at_ s1 true i) ∧ (∀ i, at_ s2 true i = at_ s1 true i) ∧
        (∀ i, m ≤ i → at_ s2 false i = at_ s1 false i) := by
      intro m
      induction m with
      | zero => exact ⟨fun i h2 => by omega, fun _ => rfl, fun _ _ => rfl⟩
      | succ m ih =>
        dsimp only at *
        obtain ⟨i1, i2, i3⟩ := ih
        rw [List.range_succ, List.map_append, exec_append]
        generalize exec ((List.range m).map (fun k (s : Mem α) =>
          upd s (.arr false k) (.elt (at_ s true k)))) s1 = s2 at *
        simp only [List.map_cons, List.map_nil, exec_cons, exec_nil]
        refine ⟨fun i h2 => ?_, fun i => ?_, fun i h2 => ?_⟩
        · rw [at_upd]
          by_cases hi : i = m
          · rw [hi, upd_same, i2]
          · rw [upd_ne _ _ _ _ hi, i1 i (by omega)]
        · rw [show at_ (upd s2 (.arr false m) (.elt (at_ s2 true m))) true = at_ s2 true
            from at_upd_not s2 true _ _, i2]
        · rw [at_upd, upd_ne _ _ _ _ (by omega), i3 i (by omega)]
    obtain ⟨l1, _, l3⟩ := loop n
    exact ⟨(h1.congr (fun _ _ _ => rfl) (fun i _ hi => l1 i hi)).toStable,
      fun i hi => by rw [l3 i hi, fr i hi]⟩

/-! A concrete strict weak order with equivalent elements: pairs by their first component. -/

def exLt (a b : Nat × Nat) : Bool := decide (a.1 < b.1)

theorem exLt_weak : StrictWeak exLt :=
  ⟨fun x => by simp [exLt], fun x y z h1 h2 => by simp [exLt] at *; omega,
    fun x y z h => by simp [exLt] at *; omega⟩

/-- 600 elements with only 7 different keys and distinct values. -/
def exMem : Mem (Nat × Nat)
  | .arr false i => .elt (i * 5 % 7, i)
  | _ => .num 0

example : ∃ s', Runs 2 (mergeSort exLt 600 2) exMem s' ∧
    StableSort 600 (fun a b => exLt a b = true) (fun i => (i * 5 % 7, i)) (at_ s' false) := by
  obtain ⟨s', h⟩ := merge_sort_has_run exLt 600 2 exMem
  exact ⟨s', h, (merge_sort_even_chunks_partial exLt_weak 600 2 (by decide) (by decide) exMem s' h).1⟩

/-! ### The violation -/

theorem strides_256 : strides 256 16 = [16, 32, 64, 128] := by
  rw [strides, dif_pos (by decide), strides, dif_pos (by decide), strides, dif_pos (by decide), strides,
    dif_pos (by decide), strides, dif_neg (by decide)]

theorem strides_257 : strides 257 16 = [16, 32, 64, 128, 256] := by
  rw [strides, dif_pos (by decide), strides, dif_pos (by decide), strides, dif_pos (by decide), strides,
    dif_pos (by decide), strides, dif_pos (by decide), strides, dif_neg (by decide)]

/-- The keys of the witness: 257 times 2, 128 times 1, 128 times 0. -/
def wit (i : Nat) : Nat := if i < 257 then 2 else if i < 385 then 1 else 0

def witMem : Mem Nat
  | .arr false i => .elt (wit i)
  | _ => .num 0

def natLt (a b : Nat) : Bool := decide (a < b)

theorem natLt_weak : StrictWeak natLt :=
  ⟨fun x => by simp [natLt], fun x y z h1 h2 => by simp [natLt] at *; omega,
    fun x y z h => by simp [natLt] at *; omega⟩

theorem mergeLoop_keeps (lt : α → α → Bool) (t : Nat) (b : Bool) (mid rr : Nat) (n k : Nat) (s : Mem α)
    (i : Nat) (hi : i < k) :
    exec ((List.range' k n).map (mergeStep lt t b mid rr)) s (.arr (!b) i) = s (.arr (!b) i) := by
  induction n generalizing k s with
  | zero => rfl
  | succ n ih =>
    rw [List.range'_succ, List.map_cons, exec_cons, ih (k + 1) _ (by omega)]
    rcases mergeStep_cases lt t b mid rr k s with ⟨_, _, e⟩ | ⟨_, _, e⟩ | ⟨_, _, e⟩ <;> rw [e]
    · unfold takeL; rw [upd_ne _ _ _ _ (by simp), upd_ne _ _ _ _ (by simp; omega)]
    · unfold takeR; rw [upd_ne _ _ _ _ (by simp), upd_ne _ _ _ _ (by simp; omega)]

/-- C26 fails with 2 threads and 513 elements (more than `256 * 2`, so the region does run in
parallel): the two threads end their local sorts in different buffers, and every run leaves the key 1
in front of the keys 0. -/
theorem merge_sort_two_threads_violated (s' : Mem Nat) (run : Runs 2 (mergeSort natLt 513 2) witMem s') :
    ¬ StableSort 513 (fun a b => natLt a b = true) wit (at_ s' false) := by
  have n0 : st 513 2 0 = 0 := rfl
  have n1 : st 513 2 1 = 257 := by decide
  have e0 : ed 513 2 0 = 257 := by decide
  have e1 : ed 513 2 1 = 513 := by decide
  have f0 : localFlip 513 2 0 = true := by
    unfold localFlip; rw [n0, e0, strides_257]; rfl
  have hin : at_ witMem false = wit := rfl
  suffices h : at_ s' false 0 = 1 by
    rintro ⟨p, p1, p2, p3, p4⟩
    have a := p3 512 (by omega)
    have w : wit 512 = 0 := by decide
    rw [w] at a
    by_cases hp : p 512 = 0
    · rw [hp, h] at a; exact absurd a (by decide)
    · obtain ⟨i, hi, e⟩ := p2 0 (by omega)
      have b := p3 i hi
      rw [e, h] at b
      have := (p4 512 i (by omega) hi).2 (.inl (by rw [w, ← b]; decide))
      omega
  unfold mergeSort at run
  rw [Verif.Scan.strides_two] at run
  cases run with
  | cons hi hr =>
    rename_i sched
    -- thread 0
    have t0 := (localPhase_run natLt_weak 513 2 witMem sched hi).1 0 (by decide)
    rw [n0, e0, f0, hin] at t0
    have v0 : at_ (exec sched witMem) true 0 = 2 := by
      obtain ⟨i, _, i2, e⟩ := t0.perm.preimage 0 (by omega) (by omega)
      rw [e, wit, if_pos i2]
    -- thread 1: the other buffer still holds the runs of 128
    have v1 : at_ (exec sched witMem) true 257 = 1 := by
      obtain ⟨r1, _⟩ := exec_thread_from 2 (fun t => Own t (st 513 2 t) (ed 513 2 t))
        (fun t => Own t (st 513 2 t) (ed 513 2 t))
        (fun t u l _ _ hne hw => own_disjoint_chunk 513 2 hne l hw) _ witMem
        (fun t _ => (localSort_spec natLt_weak t (st 513 2 t) (ed 513 2 t) witMem).2.2) sched hi
      have e : at_ (exec sched witMem) true 257 = at_ (exec (localSort natLt 1 257 513) witMem) true 257 := by
        unfold at_
        rw [r1 1 (by decide) (.arr true 257) (by rw [n1, e1]; exact ⟨by omega, by omega⟩), n1, e1]
      rw [e]
      obtain ⟨a1, _⟩ := insertionAll_spec natLt_weak 1 257 513 witMem
      unfold localSort
      rw [strides_256, exec_append]
      simp only [rounds, List.append_nil, exec_append, Bool.not_false, Bool.not_true]
      generalize exec (insertionAll natLt 1 257 513) witMem = s1 at *
      obtain ⟨b1, _⟩ := round_spec natLt_weak 1 false 16 257 513 (by decide) _ s1 a1
      generalize exec (round natLt 1 false 16 257 513) s1 = s2 at *
      obtain ⟨c1, _⟩ := round_spec natLt_weak 1 true 32 257 513 (by decide) _ s2 b1
      generalize exec (round natLt 1 true 32 257 513) s2 = s3 at *
      obtain ⟨d1, _⟩ := round_spec natLt_weak 1 false 64 257 513 (by decide) _ s3 c1
      generalize exec (round natLt 1 false 64 257 513) s3 = s4 at *
      obtain ⟨_, g2⟩ := round_spec natLt_weak 1 true 128 257 513 (by decide) _ s4 d1
      have keep : at_ (exec (round natLt 1 true 128 257 513) s4) true 257 = at_ s4 true 257 := by
        unfold at_
        rw [g2 _ (by simp) (by simp) (by intro c _ _; simp)]
      rw [keep]
      have blk : SegStable natLt 257 385 (at_ witMem false) (at_ s4 true) := d1 0
      obtain ⟨i, i1, i2, e⟩ := blk.perm.preimage 257 (by omega) (by omega)
      rw [e, hin, wit, if_neg (by omega), if_pos i2]
    generalize exec sched witMem = s1 at *
    simp only [crossPhases] at hr
    cases hr with
    | cons hi2 hr2 =>
      rename_i sched2
      have c1 := (crossPhase_alone natLt 513 2 1 (localFlip 513 2) s1 sched2 hi2).1 0 (by decide) (by decide)
        false 0 (by decide) (by decide)
      have m1 : min (nwork 513 2 * (0 + 1)) 513 = 257 := by decide
      have m2 : min (nwork 513 2 * (0 + 1 * 2)) 513 = 513 := by decide
      rw [f0, n0, m1, m2] at c1
      have nf : nextFlip 1 (localFlip 513 2) 0 = false := by
        unfold nextFlip; rw [f0]; decide
      rw [nf] at hr2
      rw [(copyBack_run 513 2 (by decide) false _ s' hr2).1 0 (by omega)]
      unfold at_
      rw [c1]
      unfold merge
      rw [show (513 - 0) = 512 + 1 from rfl, List.range'_succ, List.map_cons, exec_cons, exec_cons, exec_cons,
        show Loc.arr false 0 = Loc.arr (!true) 0 from rfl, mergeLoop_keeps _ _ _ _ _ _ _ _ _ (by omega)]
      generalize hs2 : upd (upd s1 (.left 0) (.num 0)) (.right 0) (.num 257) = s2
      have el : (s2 (.left 0)).nat = 0 := by rw [← hs2]; rfl
      have er : (s2 (.right 0)).nat = 257 := by rw [← hs2]; rfl
      have ea : at_ s2 true = at_ s1 true := by rw [← hs2, at_upd_right, at_upd_left]
      rcases mergeStep_cases natLt 0 true 257 513 0 s2 with ⟨_, c, _⟩ | ⟨_, _, e⟩ | ⟨c, _, _⟩
      · rw [el, er, ea, v0, v1] at c
        exact absurd (c (by omega)) (by decide)
      · rw [e]
        unfold takeR
        rw [upd_ne _ _ _ _ (by simp), upd_same, er, ea, v1]
        rfl
      · rw [el] at c; omega

example : ∃ s', Runs 2 (mergeSort natLt 513 2) witMem s' := merge_sort_has_run _ _ _ _

/-! ### C27 -/

omit [Inhabited α] in
/-- Sequential `sort_pair` called with the comparison `operator<` of the keys (the default) sorts.
Missing for the full claim: other comparisons, where it is false, see
`sort_pair_comparator_violated`. -/
theorem sort_pair_sequential_partial {less : α → α → Bool} (hl : StrictWeak less) (n : Nat)
    (f : Nat → α) :
    Permuted n f (seqSortPair less less n f) ∧ Ordered n less (seqSortPair less less n f) ∧
      (∀ i, n ≤ i → seqSortPair less less n f i = f i) := by
  obtain ⟨h1, h2, h3⟩ := quickSort_spec hl f 0 n
  exact ⟨h1.toPermuted, fun i j hij hj => h2 i j (by omega) hij hj, fun i hi => h3 i (by omega)⟩

/-- `sort_pair` with the OpenMP policy and `operator<`, for every thread count and schedule. -/
theorem sort_pair_parallel_partial {less : α → α → Bool} (hl : StrictWeak less) (n T : Nat)
    (hT : 0 < T) (s s' : Mem α) (run : Runs T (sortPair less less n T) s s') :
    Permuted n (at_ s false) (at_ s' false) ∧ Ordered n less (at_ s' false) ∧
      (∀ i, n ≤ i → at_ s' false i = at_ s false i) := by
  obtain ⟨h1, h2, h3⟩ := unstableSort_run hl _ (quickSort_sorts hl) n T hT s s' run
  exact ⟨h1.toPermuted, h2, h3⟩

/-- `sort` with the OpenMP policy and any comparison, for every thread count and schedule, given that
`std::sort` sorts each chunk. -/
theorem sort_parallel {lt : α → α → Bool} (hl : StrictWeak lt)
    (stdSort : (Nat → α) → Nat → Nat → Nat → α) (hstd : SortsSegments lt stdSort) (n T : Nat)
    (hT : 0 < T) (s s' : Mem α) (run : Runs T (unstableSort stdSort lt n T) s s') :
    Permuted n (at_ s false) (at_ s' false) ∧ Ordered n lt (at_ s' false) ∧
      (∀ i, n ≤ i → at_ s' false i = at_ s false i) := by
  obtain ⟨h1, h2, h3⟩ := unstableSort_run hl stdSort hstd n T hT s s' run
  exact ⟨h1.toPermuted, h2, h3⟩

/-- The hypotheses of `sort_parallel` can be met. -/
example : ∃ stdSort, SortsSegments exLt stdSort ∧
    ∃ s', Runs 3 (unstableSort stdSort exLt 1000 3) exMem s' :=
  ⟨quickSort exLt, quickSort_sorts exLt_weak, runs_exists _ _ _⟩

def natGt (a b : Nat) : Bool := decide (b < a)

/-- C27 fails for other comparisons: `sort_pair` ignores the comparison and sorts `1, 2` with
"greater" into `1, 2`. -/
theorem sort_pair_comparator_violated :
    ¬ Ordered 2 natGt (seqSortPair natLt natGt 2 (fun i => i + 1)) := by
  intro h
  have := h 0 1 (by omega) (by omega)
  unfold seqSortPair at this
  rw [quickSort_step, if_pos (by decide)] at this
  have e : (partition natLt (fun i => i + 1) 0 2).2 = 1 := by decide
  rw [e, quickSort_step _ _ 0 1, if_neg (by decide), quickSort_step, if_neg (by decide)] at this
  exact absurd this (by decide)

end Verif.MergeSort
