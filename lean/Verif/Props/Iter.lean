import Verif.Proof.Iter
import Mathlib.Data.List.Forall2
/-! # C11–C14: ranges, Collapse, zip, chunks -/
namespace Verif.Iter

/-! ### C11 -/

/-- Specification: the values `b, b+inc, …` that lie strictly before `e` (in the direction of
`inc`). -/
def InRange (b e inc v : Int) : Prop :=
  ∃ k : Nat, v = b + inc * k ∧ if 0 < inc then v < e else e < v

/-- C11 (partial): if the step divides the length and points towards the end, a range-for loop over
`range(b, e, inc)` terminates and visits exactly `b, b+inc, …, e-inc`, in order.
Missing: non-divisible lengths and steps pointing away (see the violations below). -/
theorem range_seq_partial (b inc : Int) (k : Nat) (hinc : inc ≠ 0) (fuel : Nat) (hf : k < fuel) :
    seqValues (range3 b (b + inc * k) inc) fuel
      = some ((List.range k).map fun i : Nat => b + inc * (i : Int)) := by
  have he : b + inc * (k : Int) - (b + inc * (k : Int) - b).tmod inc = b + inc * k := by
    have : b + inc * (k : Int) - b = inc * k := by omega
    rw [this, Int.mul_tmod_right]; omega
  have hp := path_iterate0 (fun s : Index => s.advance 1)
    (fun i => (⟨b + inc * i, inc⟩ : Index)) (by
      intro i
      simp only [Index.advance, Index.mk.injEq, and_true]
      rw [Int.mul_one, Int.natCast_add, Int.mul_add]; simp; omega) k
  have := visit_of_path (eq := Index.equalTo) hp (by simp [Index.equalTo]) (by
    intro s hs
    obtain ⟨i, hi, rfl⟩ := List.mem_map.mp hs
    have hi := List.mem_range.mp hi
    simp only [Index.equalTo, decide_eq_false_iff_not]
    intro h
    have : inc * (i : Int) = inc * k := by omega
    have := Int.eq_of_mul_eq_mul_left hinc this
    omega) fuel (by simpa using hf)
  rw [seqValues, range3, he]
  simp only [Int.natCast_zero, Int.mul_zero, Int.add_zero] at this
  rw [this, Option.map_some, List.map_map]
  rfl

/-- C11: `range(b, e)` visits all integers from `b` to `e` (excluded), ascending or descending. -/
theorem range2_seq (b e : Int) (fuel : Nat) (hf : (e - b).natAbs < fuel) :
    seqValues (range2 b e) fuel = some ((List.range (e - b).natAbs).map fun i : Nat =>
      if b < e then b + (i : Int) else b - i) := by
  rw [range2]
  split
  · rename_i h
    have := range_seq_partial b 1 (e - b).natAbs (by decide) fuel hf
    rw [show b + 1 * ((e - b).natAbs : Int) = e by omega] at this
    rw [this]; simp
  · rename_i h
    have := range_seq_partial b (-1) (e - b).natAbs (by decide) fuel hf
    rw [show b + -1 * ((e - b).natAbs : Int) = e by omega] at this
    rw [this]
    congr 1
    apply List.map_congr_left
    intro i _; omega

/-- C11, violated: the last partial step is dropped: `range(0, 5, 2)` misses the value 4. -/
theorem range_drops_last_violated :
    InRange 0 5 2 4 ∧ ∀ fuel, seqValues (range3 0 5 2) (fuel + 3) = some [0, 2] := by
  constructor
  · exact ⟨2, by decide, by decide⟩
  · intro fuel
    have := range_seq_partial 0 2 2 (by decide) (fuel + 3) (by omega)
    exact this

/-- C11, violated: a step pointing away from the end never terminates (the value set is empty). -/
theorem range_away_violated :
    (∀ v, ¬ InRange 0 (-4) 2 v) ∧ ∀ fuel, seqValues (range3 0 (-4) 2) fuel = none := by
  constructor
  · rintro v ⟨k, rfl, h⟩
    simp at h; omega
  · intro fuel
    have key : ∀ f (b : Int), 0 ≤ b →
        visit Index.equalTo (·.advance 1) ⟨-4, 2⟩ f ⟨b, 2⟩ = none := by
      intro f
      induction f with
      | zero => intros; rfl
      | succ f ih =>
        intro b hb
        rw [visit, if_neg]
        · have := ih (b + 2) (by omega)
          show Option.map _ (visit Index.equalTo (·.advance 1) ⟨-4, 2⟩ f ⟨b + 2, 2⟩) = none
          rw [this]; rfl
        · simp [Index.equalTo]; omega
    simp only [seqValues, range3]
    rw [show (-4 : Int) - (-4 - 0 : Int).tmod 2 = -4 by decide, key fuel 0 (by omega)]
    rfl

/-- C11 (partial): with unit step the parallel loop visits the same values as the range-for loop. -/
theorem range_par_unit_partial (b : Int) (k : Nat) :
    parValues (range3 b (b + k) 1) = (List.range k).map fun i : Nat => b + (i : Int) := by
  have he : b + (k : Int) - (b + (k : Int) - b).tmod 1 - b = k := by rw [Int.tmod_one]; omega
  simp only [parValues, range3, Index.distanceTo, parIndices, he, List.map_map]
  rw [Int.toNat_natCast]
  apply List.map_congr_left
  intro i _
  simp [Index.advance, Index.deref]

/-- C11, violated: for any step above one and any non-empty range the parallel loop visits values
at or beyond the end (the distance is not divided by the step). -/
theorem range_par_stride_violated (b inc : Int) (k : Nat) (hinc : 2 ≤ inc) (hk : 1 ≤ k) :
    ∃ v ∈ parValues (range3 b (b + inc * k) inc), b + inc * k ≤ v := by
  have he : b + inc * (k : Int) - (b + inc * (k : Int) - b).tmod inc - b = inc * k := by
    have : b + inc * (k : Int) - b = inc * k := by omega
    rw [this, Int.mul_tmod_right]; omega
  have hpos : (2 : Int) * k ≤ inc * k := Int.mul_le_mul_of_nonneg_right hinc (by omega)
  refine ⟨b + inc * k, ?_, Int.le_refl _⟩
  simp only [parValues, range3, Index.distanceTo, parIndices, he, List.map_map]
  refine List.mem_map.mpr ⟨k, ?_, ?_⟩
  · rw [List.mem_range]; omega
  · simp [Index.advance, Index.deref]

/-- C11, violated: a descending `range(b, e)` is visited by the range-for loop but the parallel loop
does nothing (negative distance). -/
theorem range_par_descending_violated (b e : Int) (h : e < b) :
    parValues (range2 b e) = [] ∧
      ∃ v l, seqValues (range2 b e) ((e - b).natAbs + 1) = some (v :: l) := by
  constructor
  · have he : e - (e - b).tmod (-1) - b < 0 := by
      rw [Int.tmod_neg, Int.tmod_one]; omega
    simp only [parValues, range2, if_neg (show ¬ b < e by omega), range3, Index.distanceTo, parIndices]
    rw [show (e - (e - b).tmod (-1) - b).toNat = 0 by omega]
    rfl
  · rw [range2_seq b e _ (by omega)]
    obtain ⟨m, hm⟩ : ∃ m, (e - b).natAbs = m + 1 := ⟨(e - b).natAbs - 1, by omega⟩
    rw [hm, List.range_succ_eq_map]
    exact ⟨_, _, rfl⟩

/-! ### C12 -/

/-- Specification: all multi-indices below the extents, in lexicographic order. -/
def tuples : List Nat → List (List Nat)
  | [] => [[]]
  | n :: ns => (List.range n).flatMap fun i => (tuples ns).map (i :: ·)

theorem mem_tuples (ns t : List Nat) :
    t ∈ tuples ns ↔ List.Forall₂ (fun i n => i < n) t ns := by
  induction ns generalizing t with
  | nil => simp [tuples]
  | cons n ns ih =>
    rw [tuples, List.mem_flatMap]
    constructor
    · rintro ⟨i, hi, h⟩
      obtain ⟨u, hu, rfl⟩ := List.mem_map.mp h
      exact .cons (List.mem_range.mp hi) ((ih u).mp hu)
    · intro h
      cases h with
      | cons h1 h2 =>
        exact ⟨_, List.mem_range.mpr h1, List.mem_map.mpr ⟨_, (ih _).mpr h2, rfl⟩⟩

private theorem tuples_snoc (ns : List Nat) (n : Nat) :
    tuples (ns ++ [n]) = (tuples ns).flatMap fun t => (List.range n).map fun i => t ++ [i] := by
  induction ns with
  | nil => simp [tuples, List.map_eq_flatMap]
  | cons m ns ih =>
    rw [List.cons_append, tuples, ih, tuples, List.flatMap_assoc]
    congr 1; funext i
    rw [List.map_flatMap, List.flatMap_map]
    congr 1; funext t
    rw [List.map_map]; rfl

/-- What the code really enumerates: a zero extent in any but the first dimension acts as one. -/
def effective : List Nat → List Nat
  | [] => []
  | n :: ns => n :: ns.map (max 1)

private theorem revTuples_eq (n : Nat) (ns : List Nat) :
    (revTuples ((n :: ns).reverse)).map List.reverse = tuples (effective (n :: ns)) := by
  suffices h : ∀ rs : List Nat, (revTuples (rs ++ [n])).map List.reverse
      = tuples (n :: (rs.reverse.map (max 1))) by
    have := h ns.reverse
    rw [List.reverse_reverse] at this
    rw [List.reverse_cons, this]; rfl
  intro rs
  induction rs with
  | nil => simp [revTuples, tuples, List.map_eq_flatMap, List.flatMap_assoc]
  | cons m rs ih =>
    rw [List.cons_append, revTuples.eq_3 m (rs ++ [n]) (by simp), List.reverse_cons, List.map_append,
      List.map_cons, List.map_nil, ← List.cons_append, tuples_snoc, ← ih, List.map_flatMap,
      List.flatMap_map]
    congr 1; funext t
    rw [List.map_map]
    apply List.map_congr_left
    intro i _; simp

/-- C12: for every number of dimensions and all extents the loop terminates; what it visits is the
lexicographic enumeration of the effective extents. -/
theorem collapse_visits (n : Nat) (ns : List Nat) :
    ∃ f₀, ∀ f, f₀ ≤ f → collapseValues (n :: ns) f = some (tuples (effective (n :: ns))) := by
  obtain ⟨l, h1, h2, h3⟩ := collapse_path (n :: ns).reverse (by simp)
  refine ⟨l.length + 1, ?_⟩
  intro f hf
  rw [collapseValues, visit_of_path h1 (by simp [collapseEq]) h3 f (by omega), Option.map_some,
    ← revTuples_eq, ← h2, List.map_map]
  rfl

/-- C12 (partial): with positive inner extents the loop visits every multi-index exactly once in
lexicographic order (an outer extent of zero gives nothing). -/
theorem collapse_lex_partial (n : Nat) (ns : List Nat) (h : ∀ m ∈ ns, 1 ≤ m) :
    ∃ f₀, ∀ f, f₀ ≤ f → collapseValues (n :: ns) f = some (tuples (n :: ns)) := by
  obtain ⟨f, hf⟩ := collapse_visits n ns
  refine ⟨f, ?_⟩
  have : effective (n :: ns) = n :: ns := by
    rw [effective]; congr 1
    conv => rhs; rw [← List.map_id ns]
    apply List.map_congr_left
    intro m hm; have := h m hm; simp; omega
  rwa [this] at hf

/-- C12, violated: `ndrange(2, 0)` visits two multi-indices although there are none. -/
theorem collapse_zero_violated :
    tuples [2, 0] = [] ∧
      ∃ f₀, ∀ f, f₀ ≤ f → collapseValues [2, 0] f = some [[0, 0], [1, 0]] :=
  ⟨rfl, collapse_visits 2 [0]⟩

/-! ### C13 -/

private theorem zip_deref {α} (rs : List (List α)) (i : Nat) (h : ∀ r ∈ rs, i < r.length) :
    ∃ t, zipDeref rs (rs.map fun _ => i) = some t ∧ List.Forall₂ (fun r x => r[i]? = some x) rs t := by
  induction rs with
  | nil => exact ⟨[], rfl, .nil⟩
  | cons r rs ih =>
    obtain ⟨t, h1, h2⟩ := ih (fun r hr => h r (by simp [hr]))
    have hr := h r (by simp)
    refine ⟨r[i] :: t, ?_, .cons (List.getElem?_eq_getElem hr) h2⟩
    rw [zipDeref] at h1 ⊢
    rw [List.map_cons, List.zip_cons_cons, List.mapM_cons, h1]
    simp [hr]

private theorem mapM_range {α} (g : Nat → Option α) (P : Nat → α → Prop) (m : Nat)
    (h : ∀ i, i < m → ∃ t, g i = some t ∧ P i t) :
    ∃ ts, (List.range m).mapM g = some ts ∧ ts.length = m ∧ ∀ i t, ts[i]? = some t → P i t := by
  induction m with
  | zero => exact ⟨[], rfl, rfl, by simp⟩
  | succ m ih =>
    obtain ⟨ts, h1, h2, h3⟩ := ih (fun i hi => h i (by omega))
    obtain ⟨t, h4, h5⟩ := h m (by omega)
    refine ⟨ts ++ [t], ?_, by simp [h2], ?_⟩
    · rw [List.range_succ, List.mapM_append, h1]
      simp [h4]
    · intro i u hu
      by_cases hi : i < ts.length
      · rw [List.getElem?_append_left hi] at hu; exact h3 i u hu
      · rw [List.getElem?_append_right (by omega)] at hu
        have : i - ts.length = 0 := by
          rcases Nat.eq_zero_or_pos (i - ts.length) with e | e
          · exact e
          · rw [List.getElem?_eq_none (by simp; omega)] at hu; cases hu
        rw [this] at hu
        simp at hu
        have e : i = m := by omega
        rw [e, ← hu]; exact h5

/-- Specification: `m` is the length of the shortest range. -/
def IsMinLen {α} (rs : List (List α)) (m : Nat) : Prop :=
  (∃ r ∈ rs, r.length = m) ∧ ∀ r ∈ rs, m ≤ r.length

/-- C13: iterating `zip(rs...)` yields one tuple per position of the shortest range, the `i`-th
holding the `i`-th element of every range, and never reads past an end. -/
theorem zip_spec {α} (rs : List (List α)) (m : Nat) (hm : IsMinLen rs m) (f : Nat) (hf : m < f) :
    ∃ ts, zipValues rs f = some ts ∧ ts.length = m ∧
      ∀ (i : Nat) t, ts[i]? = some t → List.Forall₂ (fun r x => r[i]? = some x) rs t := by
  have hp := path_iterate zipInc (fun i => rs.map fun _ => i) (fun i => by simp [zipInc]) m 0
  simp only [Nat.zero_add] at hp
  have heq : ∀ i, zipEq (rs.map fun _ => i) (rs.map List.length) = true ↔ ∃ r ∈ rs, r.length = i := by
    intro i
    clear hm hf hp
    induction rs with
    | nil => simp [zipEq]
    | cons r rs ih =>
      rw [zipEq] at ih ⊢
      simp only [List.map_cons, List.zip_cons_cons, List.any_cons, Bool.or_eq_true, ih]
      simp only [List.mem_cons, exists_eq_or_imp, beq_iff_eq]
      constructor
      · rintro (h | h)
        · exact Or.inl h.symm
        · exact Or.inr h
      · rintro (h | h)
        · exact Or.inl h.symm
        · exact Or.inr h
  -- generic loop lemma with the end state replaced
  have hv : ∀ k j, j + k = m → ∀ f, k < f →
      visit zipEq zipInc (rs.map List.length) f (rs.map fun _ => j)
        = some ((List.range k).map fun i => rs.map fun _ => j + i) := by
    intro k
    induction k with
    | zero =>
      intro j hj f hf
      obtain ⟨f, rfl⟩ : ∃ g, f = g + 1 := ⟨f - 1, by omega⟩
      have : zipEq (rs.map fun _ => j) (rs.map List.length) = true := by
        rw [heq]; obtain ⟨r, hr, e⟩ := hm.1; exact ⟨r, hr, by omega⟩
      rw [visit, this]; rfl
    | succ k ih =>
      intro j hj f hf
      obtain ⟨f, rfl⟩ : ∃ g, f = g + 1 := ⟨f - 1, by omega⟩
      have : ¬ zipEq (rs.map fun _ => j) (rs.map List.length) = true := by
        rw [heq]
        rintro ⟨r, hr, e⟩
        have := hm.2 r hr; omega
      rw [visit, if_neg this]
      have hi : zipInc (rs.map fun _ => j) = rs.map fun _ => j + 1 := by simp [zipInc]
      rw [hi, ih (j + 1) (by omega) f (by omega), Option.map_some, List.range_succ_eq_map,
        List.map_cons, List.map_map]
      congr 2
      apply List.map_congr_left
      intro i _
      simp only [Function.comp]
      apply List.map_congr_left
      intro _ _; omega
  rw [zipValues, hv m 0 (by omega) f hf]
  simp only [Nat.zero_add, Option.bind_eq_bind, Option.bind_some, List.mapM_map]
  exact mapM_range _ _ m (fun i hi => zip_deref rs i (fun r hr => by have := hm.2 r hr; omega))

/-- C13: the distance used by parallel loops is the length of the shortest range. -/
theorem zipDist_spec {α} (rs : List (List α)) (m : Nat) (hm : IsMinLen rs m) (maxv : Int)
    (hmax : ∀ r ∈ rs, (r.length : Int) ≤ maxv) :
    zipDist maxv (rs.map fun _ => 0) (rs.map List.length) = m := by
  have key : ∀ (rs : List (List α)) (d : Int),
      let z := ((rs.map fun _ => 0).zip (rs.map List.length)).foldl
        (fun d (p : Nat × Nat) => if d < (p.2 : Int) - p.1 then d else (p.2 : Int) - p.1) d
      (z = d ∨ ∃ r ∈ rs, z = r.length) ∧ z ≤ d ∧ ∀ r ∈ rs, z ≤ r.length := by
    intro rs
    induction rs with
    | nil => intro d; simp
    | cons r rs ih =>
      intro d
      simp only [List.map_cons, List.zip_cons_cons, List.foldl_cons]
      have := ih (if d < (r.length : Int) - ((0 : Nat) : Int) then d
        else (r.length : Int) - ((0 : Nat) : Int))
      obtain ⟨h1, h2, h3⟩ := this
      refine ⟨?_, ?_, ?_⟩
      · rcases h1 with h1 | ⟨r', hr', h1⟩
        · rw [h1]
          split
          · exact Or.inl rfl
          · right; exact ⟨r, by simp, by simp⟩
        · right; exact ⟨r', by simp [hr'], h1⟩
      · refine Int.le_trans h2 ?_
        split <;> simp_all
      · intro r' hr'
        rcases List.mem_cons.mp hr' with rfl | hr'
        · refine Int.le_trans h2 ?_
          split <;> simp_all
          omega
        · exact h3 r' hr'
  obtain ⟨h1, h2, h3⟩ := key rs maxv
  rw [zipDist]
  obtain ⟨⟨r0, hr0, e0⟩, hall⟩ := hm
  have u := h3 r0 hr0
  rcases h1 with h1 | ⟨r, hr, h1⟩
  · have := hmax r0 hr0
    omega
  · have := hall r hr
    omega

/-! ### C14 -/

/-- C14, violated: a range-for loop over a chunked view never visits anything (the iterator
comparison compares one side with itself). -/
theorem chunk_seq_violated {α} (l : List α) (size : Nat) (f : Nat) :
    chunkValues l size (f + 1) = some [] := by
  simp [chunkValues, visit, Chunk.equalTo]

/-- C14 (partial): addressed by position (as the parallel loop does), the pieces are consecutive,
have length `size` except possibly the last one, none is empty, and concatenate to the range.
Missing: the range-for loop, which is wrong. -/
theorem chunk_par_partial {α} (l : List α) (size : Nat) (hs : 1 ≤ size) :
    (chunkParValues l size).flatten = l ∧
      (∀ p ∈ chunkParValues l size, p ≠ [] ∧ p.length ≤ size) ∧
      ∀ p ∈ (chunkParValues l size).dropLast, p.length = size := by
  have hcount : ∀ n, (n + size - 1) / size * size < n + size ∧ n ≤ (n + size - 1) / size * size := by
    intro n
    have h1 := Nat.div_add_mod (n + size - 1) size
    have h2 := Nat.mod_lt (n + size - 1) (show 0 < size by omega)
    rw [Nat.mul_comm] at h1
    omega
  have hd : chunkParValues l size
      = (List.range ((l.length + size - 1) / size)).map fun i => (l.drop (i * size)).take size := by
    rw [chunkParValues]
    have : (chunkBegin.distanceTo (chunkEnd l.length size)).toNat = (l.length + size - 1) / size := by
      simp only [chunkBegin, chunkEnd, Chunk.distanceTo]
      generalize (l.length + size - 1) / size = c
      omega
    rw [this]
    apply List.map_congr_left
    intro i hi
    have hi := List.mem_range.mp hi
    simp only [Chunk.deref, chunkBegin, Chunk.advance, Nat.zero_add]
    split
    · rw [List.take_of_length_le (by simp), List.take_of_length_le (by simp; omega)]
    · rw [Nat.add_sub_cancel_left]
  rw [hd]
  have hflat : ∀ k, ((List.range k).map fun i => (l.drop (i * size)).take size).flatten
      = l.take (k * size) := by
    intro k
    induction k with
    | zero => simp
    | succ k ih =>
      rw [List.range_succ, List.map_append, List.flatten_append, ih]
      simp only [List.map_cons, List.map_nil, List.flatten_cons, List.flatten_nil, List.append_nil]
      rw [Nat.succ_mul, List.take_add]
  obtain ⟨hc1, hc2⟩ := hcount l.length
  refine ⟨?_, ?_, ?_⟩
  · rw [hflat, List.take_of_length_le hc2]
  · intro p hp
    obtain ⟨i, hi, rfl⟩ := List.mem_map.mp hp
    have hi := List.mem_range.mp hi
    have hlt : i * size < l.length := by
      have : (i + 1) * size ≤ (l.length + size - 1) / size * size := Nat.mul_le_mul_right _ hi
      rw [Nat.succ_mul] at this
      omega
    refine ⟨?_, by simp; omega⟩
    intro h
    have := congrArg List.length h
    simp at this; omega
  · intro p hp
    rw [← List.map_dropLast] at hp
    obtain ⟨i, hi, rfl⟩ := List.mem_map.mp hp
    have hi : i + 1 < (l.length + size - 1) / size := by
      rcases Nat.eq_zero_or_pos ((l.length + size - 1) / size) with e | e
      · rw [e] at hi; simp at hi
      · obtain ⟨c, hc⟩ : ∃ c, (l.length + size - 1) / size = c + 1 :=
          ⟨(l.length + size - 1) / size - 1, by omega⟩
        rw [hc, List.range_succ, List.dropLast_concat] at hi
        have := List.mem_range.mp hi
        omega
    have : (i + 1 + 1) * size ≤ (l.length + size - 1) / size * size := Nat.mul_le_mul_right _ hi
    simp only [Nat.succ_mul] at this
    simp; omega

example : IsMinLen [[1, 2, 3], [4, 5]] 2 := ⟨⟨[4, 5], by simp, rfl⟩, by simp⟩
example : zipValues [[1, 2, 3], [4, 5]] 9 = some [[1, 4], [2, 5]] := by decide
example : collapseValues [2, 3] 20 = some (tuples [2, 3]) := by decide
example : chunkParValues [1, 2, 3, 4, 5] 2 = [[1, 2], [3, 4], [5]] := by decide

end Verif.Iter
