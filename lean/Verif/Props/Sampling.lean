import Verif.Proof.Sampling
import Verif.Spec.Rotation

/-!
Sampling (C103).
-/
namespace Verif.Sampling

open Finset MeasureTheory

/-! ## Densities -/

/-- `PDF(lambda, k)` is the Poisson distribution. -/
theorem poisson_exact (lam : ℕ) (k : ℕ) : poissonPdf lam k = pmf lam k ∧ HasSum (poissonPdf lam) 1 := by
  have h : ∀ k, poissonPdf lam k = pmf lam k := fun k => by rw [poissonPdf_eq]; simp [pmf]
  exact ⟨h k, by rw [funext h]; exact pmf_hasSum lam⟩

example : poissonPdf 2 3 = Real.exp (-2) * 8 / 6 := by rw [poissonPdf_eq]; norm_num [Nat.factorial]

/-- `PDF(u, o, x)` is the density of the normal distribution with mean `u` and deviation `o`, and `anti_normal_PDF` is one minus it. -/
theorem normal_exact (u : ℝ) {o : NNReal} (ho : o ≠ 0) (x : ℕ) : normalPdf u o x = ProbabilityTheory.gaussianPDFReal u (o ^ 2) x ∧
    antiNormalPdf u o x = 1 - ProbabilityTheory.gaussianPDFReal u (o ^ 2) x := by
  refine ⟨normalPdf_eq u ho x, ?_⟩
  rw [← normalPdf_eq u ho x]; rfl

/-! ## Random integers -/

/-- For a parameter that is a natural number and a number below one, `rand_p` stops, at the number where the cumulated distribution first exceeds it. -/
theorem rand_p_exact_partial (lam : ℕ) {u : ℝ} (h0 : 0 ≤ u) (h1 : u < 1) :
    (∃ x fuel, randP lam u fuel = some x) ∧
    ∀ x, (∃ fuel, randP lam u fuel = some x) ↔ ∑ i ∈ range x, pmf lam i ≤ u ∧ u < ∑ i ∈ range (x + 1), pmf lam i := by
  have key : ∀ x fuel, randP lam u fuel = some x ↔ x < fuel ∧ (∀ j, j < x → ∑ i ∈ range (j + 1), pmf lam i ≤ u) ∧ u < ∑ i ∈ range (x + 1), pmf lam i := by
    intro x fuel
    rw [randP, search_iff]
    constructor
    · rintro ⟨k, h1, h2, h3, h4⟩
      have : x = k := by omega
      subst this
      exact ⟨h1, fun j hj => by rw [← cum_pmf]; exact h3 j hj, by rw [← cum_pmf]; exact h4⟩
    · rintro ⟨h1, h3, h4⟩
      exact ⟨x, h1, by omega, fun j hj => by rw [cum_pmf]; exact h3 j hj, by rw [cum_pmf]; exact h4⟩
  have hiff : ∀ x, (∃ fuel, randP lam u fuel = some x) ↔ ∑ i ∈ range x, pmf lam i ≤ u ∧ u < ∑ i ∈ range (x + 1), pmf lam i := by
    intro x
    constructor
    · rintro ⟨fuel, h⟩
      obtain ⟨_, h3, h4⟩ := (key x fuel).1 h
      refine ⟨?_, h4⟩
      cases x with
      | zero => simpa using h0
      | succ x => exact h3 x (by omega)
    · rintro ⟨h3, h4⟩
      exact ⟨x + 1, (key x _).2 ⟨by omega, fun j hj => le_trans (sum_mono (pmf_nonneg _) (by omega)) h3, h4⟩⟩
  refine ⟨?_, hiff⟩
  have hex := pmf_sum_exceeds lam h1
  classical
  have hf := Nat.find_spec hex
  have hm := fun m => Nat.find_min (m := m) hex
  generalize Nat.find hex = n at hf hm
  cases n with
  | zero => simp at hf; exact absurd hf (not_lt.2 h0)
  | succ n =>
    obtain ⟨fuel, h⟩ := (hiff n).2 ⟨not_lt.1 (hm n (by omega)), hf⟩
    exact ⟨n, fuel, h⟩

/-- So for a number with uniform distribution the results have the Poisson distribution. -/
theorem rand_p_distribution_partial (lam x : ℕ) :
    volume {u : ℝ | 0 ≤ u ∧ u < 1 ∧ ∃ fuel, randP lam u fuel = some x} = ENNReal.ofReal (pmf lam x) := by
  have : {u : ℝ | 0 ≤ u ∧ u < 1 ∧ ∃ fuel, randP lam u fuel = some x} = Set.Ico (∑ i ∈ range x, pmf lam i) (∑ i ∈ range (x + 1), pmf lam i) := by
    ext u
    constructor
    · rintro ⟨h0, h1, h⟩
      exact ((rand_p_exact_partial lam h0 h1).2 x).1 h
    · rintro ⟨h3, h4⟩
      have h0 : 0 ≤ u := le_trans (sum_nonneg fun i _ => pmf_nonneg _ i) h3
      have h1 : u < 1 := lt_of_lt_of_le h4 (pmf_sum_le lam _)
      exact ⟨h0, h1, ((rand_p_exact_partial lam h0 h1).2 x).2 ⟨h3, h4⟩⟩
  rw [this, Real.volume_Ico, sum_range_succ]
  congr 1
  ring

/-- For a positive parameter that is not a natural number, `rand_p` does not stop for all numbers below one: the parameter is converted to an `int` in
all terms but the first. Nor does it stop for the number one, which `rand() / RAND_MAX` can be. -/
theorem rand_p_violated : (∀ lam : ℝ, 0 < lam → (∀ n : ℕ, lam ≠ n) → ∃ u, 0 ≤ u ∧ u < 1 ∧ ∀ fuel, randP lam u fuel = none) ∧
    ∀ (lam : ℕ) (fuel : ℕ), randP lam 1 fuel = none := by
  refine ⟨fun lam hl hn => ?_, fun lam fuel => search_none _ _ _ (fun k => ?_) fuel⟩
  · have hfl : ((⌊lam⌋₊ : ℕ) : ℝ) < lam := lt_of_le_of_ne (Nat.floor_le hl.le) (hn _).symm
    have hti : toInt lam = ((⌊lam⌋₊ : ℕ) : ℤ) := by rw [toInt, if_pos hl.le, Int.natCast_floor_eq_floor hl.le]
    have hlt : Real.exp (-lam) < Real.exp (-((⌊lam⌋₊ : ℕ) : ℝ)) := Real.exp_lt_exp.2 (by linarith)
    have hle : Real.exp (-((⌊lam⌋₊ : ℕ) : ℝ)) ≤ 1 := Real.exp_le_one_iff.2 (by have : (0 : ℝ) ≤ (⌊lam⌋₊ : ℕ) := Nat.cast_nonneg _
                                                                               linarith)
    have hpos := Real.exp_pos (-lam)
    refine ⟨1 - (Real.exp (-((⌊lam⌋₊ : ℕ) : ℝ)) - Real.exp (-lam)), by linarith, by linarith, fun fuel => search_none _ _ _ (fun k => ?_) fuel⟩
    have h2 := cum_pmf ⌊lam⌋₊ k
    have h3 := pmf_sum_le (⌊lam⌋₊ : ℕ) (k + 1)
    rw [cum, toInt_nat] at h2
    rw [cum, hti]
    have e1 : Real.exp (-1 * lam) = Real.exp (-lam) := by rw [neg_one_mul]
    have e2 : Real.exp (-1 * ((⌊lam⌋₊ : ℕ) : ℝ)) = Real.exp (-((⌊lam⌋₊ : ℕ) : ℝ)) := by rw [neg_one_mul]
    rw [e2] at h2
    rw [e1]
    linarith
  · rw [cum_pmf]
    exact pmf_sum_le _ _

/-- `rand_normal` does not sample the normal distribution: whatever the mean, the results are positive, and with mean 0 and deviation 1 it does not
stop for the number 9/10. -/
theorem rand_normal_violated : (∀ u o val : ℝ, 0 ≤ val → ∀ fuel x, randNormal u o val fuel = some x → 0 < x) ∧
    ∀ fuel, randNormal 0 1 (9 / 10) fuel = none := by
  refine ⟨fun u o val h0 fuel x h => ?_, fun fuel => search_none _ _ _ (fun k => ?_) fuel⟩
  · obtain ⟨k, _, h2, _, h4⟩ := (search_iff ..).1 h
    cases k with
    | zero => simp [cum] at h4; exact absurd h4 (not_lt.2 h0)
    | succ k => omega
  · rw [cum, zero_add]
    exact (standard_sum k).trans (by norm_num)

/-- `rand_normal` at least adds up the density over the positive integers: the result is the first one where the sum exceeds the number. -/
theorem rand_normal_partial {u o val : ℝ} (ho : 0 < o) (h0 : 0 ≤ val) (x : ℕ) : (∃ fuel, randNormal u o val fuel = some x) ↔
    0 < x ∧ ∑ i ∈ Ico 1 x, normalPdf u o i ≤ val ∧ val < ∑ i ∈ Ico 1 (x + 1), normalPdf u o i := by
  have hc : ∀ k, cum (normalPdf u o) 0 0 k = ∑ i ∈ Ico 1 (k + 1), normalPdf u o i := by
    intro k
    rw [cum, zero_add, sum_Ico_eq_sum_range]
    apply sum_congr rfl
    intro i _
    congr 1
    omega
  have mono : ∀ m n, m ≤ n → ∑ i ∈ Ico 1 m, normalPdf u o i ≤ ∑ i ∈ Ico 1 n, normalPdf u o i := fun m n h =>
    sum_le_sum_of_subset_of_nonneg (Ico_subset_Ico_right h) fun i _ _ => normalPdf_nonneg ho i
  constructor
  · rintro ⟨fuel, h⟩
    obtain ⟨k, _, h2, h3, h4⟩ := (search_iff ..).1 h
    have : x = k := by omega
    subst this
    rw [hc] at h4
    cases x with
    | zero => simp at h4; exact absurd h4 (not_lt.2 h0)
    | succ x => exact ⟨by omega, by have := h3 x (by omega); rwa [hc] at this, h4⟩
  · rintro ⟨_, h3, h4⟩
    exact ⟨x + 1, (search_iff ..).2 ⟨x, by omega, by omega, fun j hj => by rw [hc]; exact le_trans (mono _ _ (by omega)) h3, by rw [hc]; exact h4⟩⟩

/-- `rand_anti_normal` with a deviation of at least one only ever returns 1 and 2, whatever the mean. -/
theorem rand_anti_normal_exact {u o val : ℝ} (ho : 1 ≤ o) (h0 : 0 ≤ val) (h1 : val ≤ 1) (fuel : ℕ) (hf : 3 ≤ fuel) :
    randAntiNormal u o val fuel = some (if val < 1 - normalPdf u o 1 then 1 else 2) := by
  have a1 : antiNormalPdf u o 1 = 1 - normalPdf u o 1 := rfl
  have a2 : antiNormalPdf u o 2 = 1 - normalPdf u o 2 := rfl
  have b1 := normalPdf_le (u := u) ho 1
  have b2 := normalPdf_le (u := u) ho 2
  have c0 : cum (antiNormalPdf u o) 0 0 0 = 0 := by simp [cum]
  have c1 : cum (antiNormalPdf u o) 0 0 1 = 1 - normalPdf u o 1 := by simp [cum, a1]
  have c2 : cum (antiNormalPdf u o) 0 0 2 = 1 - normalPdf u o 1 + (1 - normalPdf u o 2) := by simp [cum, sum_range_succ, a1, a2]
  rw [randAntiNormal, search_iff]
  by_cases hc : val < 1 - normalPdf u o 1
  · rw [if_pos hc]
    refine ⟨1, by omega, rfl, fun j hj => ?_, by rw [c1]; exact hc⟩
    have : j = 0 := by omega
    rw [this, c0]; exact h0
  · rw [if_neg hc]
    refine ⟨2, by omega, rfl, fun j hj => ?_, by rw [c2]; linarith⟩
    have : j = 0 ∨ j = 1 := by omega
    rcases this with rfl | rfl
    · rw [c0]; exact h0
    · rw [c1]; exact not_lt.1 hc

example : (1 : ℝ) ≤ 1 ∧ (0 : ℝ) ≤ 1 / 2 ∧ (1 / 2 : ℝ) ≤ 1 := by norm_num

/-! ## Random points -/

/-- The entries of a vector made by `randInBox` are taken one after the other from the generator and lie within the box. -/
theorem box_exact {dim : ℕ} {src : ℕ → ℝ} (hs : ∀ n, 0 ≤ src n ∧ src n < 1) {lo hi : ℕ → ℝ} (h : ∀ i, lo i < hi i) (pos : ℕ) :
    (randInBox dim src lo hi pos).2 = pos + dim ∧ (randInBox dim src lo hi pos).1.length = dim ∧
    ∀ i, i < dim → (randInBox dim src lo hi pos).1.getD i 0 = lo i + src (pos + i) * (hi i - lo i) ∧
      lo i ≤ (randInBox dim src lo hi pos).1.getD i 0 ∧ (randInBox dim src lo hi pos).1.getD i 0 < hi i := by
  rw [randInBox_eq]
  refine ⟨rfl, by simp, fun i hi' => ?_⟩
  have e : ((List.range dim).map fun i => randReal (lo i) (hi i) (src (pos + i))).getD i 0 = lo i + src (pos + i) * (hi i - lo i) := by
    simp [List.getD_eq_getElem?_getD, List.getElem?_range hi', randReal, add_comm]
  have hp : 0 < hi i - lo i := sub_pos.2 (h i)
  refine ⟨e, ?_, ?_⟩
  · rw [e]; have := mul_nonneg (hs (pos + i)).1 hp.le; linarith
  · rw [e]; have := mul_lt_mul_of_pos_right (hs (pos + i)).2 hp; linarith

/-- Barycentric weights are not negative and their sum is one. They are the first group of `dim - 1` numbers from the generator whose sum is at most
one, completed by the last weight; if there is such a group, the loop stops. -/
theorem weights_exact {dim : ℕ} (hd : 0 < dim) {src : ℕ → ℝ} (hs : ∀ n, 0 ≤ src n ∧ src n < 1) (pos : ℕ) :
    (∀ fuel r pos', weights dim src fuel pos = some (r, pos') → r.length = dim ∧ (∀ w ∈ r, 0 ≤ w ∧ w ≤ 1) ∧ r.sum = 1 ∧
      ∃ k, r.take (dim - 1) = (List.range (dim - 1)).map (fun i => src (pos + k * (dim - 1) + i)) ∧ pos' = pos + (k + 1) * (dim - 1) ∧
        ∀ j, j < k → ((List.range (dim - 1)).map fun i => src (pos + j * (dim - 1) + i)).sum > 1) ∧
    ((∃ k, ((List.range (dim - 1)).map fun i => src (pos + k * (dim - 1) + i)).sum ≤ 1) → ∃ fuel, (weights dim src fuel pos).isSome) := by
  have hiff := fun fuel r => doWhile_iff (fun p => (List.range (dim - 1)).foldl (weightStep src) (([], 0), p)) (fun s => s.2 > 1) (dim - 1)
    (fun p => by rw [weightRound_eq]) fuel pos r
  refine ⟨fun fuel r pos' h => ?_, fun hk => ?_⟩
  · rw [weights, Option.map_eq_some_iff] at h
    obtain ⟨a, ha, e⟩ := h
    obtain ⟨k, h1, h2, h3, h4⟩ := (hiff fuel a).1 ha
    simp only [weightRound_eq] at h2 h3 h4
    rw [h4] at e
    simp only [Prod.mk.injEq] at e
    obtain ⟨rfl, rfl⟩ := e
    have hnn : ∀ w ∈ (List.range (dim - 1)).map (fun i => src (pos + k * (dim - 1) + i)), 0 ≤ w ∧ w ≤ 1 := by
      intro w hw
      obtain ⟨i, _, rfl⟩ := List.mem_map.1 hw
      exact ⟨(hs _).1, (hs _).2.le⟩
    refine ⟨by simp; omega, ?_, by simp, k, by simp, by rw [Nat.add_mul, Nat.one_mul, Nat.add_assoc], h2⟩
    intro w hw
    rw [List.mem_append, List.mem_singleton] at hw
    rcases hw with hw | rfl
    · exact hnn w hw
    · have := List.sum_nonneg fun w hw => (hnn w hw).1
      have := not_lt.1 h3
      constructor <;> linarith
  · classical
    have hf := Nat.find_spec hk
    have hm := fun m => Nat.find_min (m := m) hk
    generalize Nat.find hk = n at hf hm
    refine ⟨n + 1, ?_⟩
    rw [weights, (hiff (n + 1) _).2 ⟨n, by omega, fun j hj => by simp only [weightRound_eq]; exact not_le.1 (hm j hj),
      by simp only [weightRound_eq]; exact not_lt.2 hf, rfl⟩]
    rfl

/-- All weights below one occur: for weights that are not negative with sum one there are numbers for which they are the result. -/
theorem weights_onto {r : List ℝ} {x : ℝ} (h0 : ∀ w ∈ r, 0 ≤ w ∧ w < 1) (hx : 0 ≤ x) (h1 : r.sum + x = 1) :
    ∃ src : ℕ → ℝ, (∀ n, 0 ≤ src n ∧ src n < 1) ∧ weights (r.length + 1) src 1 0 = some (r ++ [x], r.length) := by
  refine ⟨fun n => r.getD n 0, fun n => ?_, ?_⟩
  · show 0 ≤ r.getD n 0 ∧ r.getD n 0 < 1
    by_cases hn : n < r.length
    · rw [List.getD_eq_getElem?_getD, List.getElem?_eq_getElem hn]
      exact h0 _ (List.getElem_mem hn)
    · rw [List.getD_eq_getElem?_getD, List.getElem?_eq_none (by omega)]
      norm_num
  · have hr : (List.range r.length).map (fun i => r.getD (0 + i) 0) = r := by
      apply List.ext_getElem
      · simp
      · intro i h1 h2
        simp [List.getElem?_eq_getElem h2]
    have hd := (doWhile_iff (fun p => (List.range (r.length + 1 - 1)).foldl (weightStep fun n => r.getD n 0) (([], 0), p)) (fun s => s.2 > 1) r.length
      (fun p => by rw [weightRound_eq, Nat.add_sub_cancel]) 1 0 ((r, r.sum), r.length)).2
      ⟨0, by omega, fun j hj => by omega, by
        simp only [weightRound_eq, Nat.add_sub_cancel, Nat.zero_mul, Nat.add_zero, hr]; exact not_lt.2 (by linarith), by
        simp only [weightRound_eq, Nat.add_sub_cancel, Nat.zero_mul, Nat.add_zero, hr]; rw [Nat.zero_add]⟩
    rw [weights, hd]
    have : 1 - r.sum = x := by linarith
    simp [this]

/-- A vector made by `randInBall` lies in the ball; it is the first one from the box around the ball that does. -/
theorem ball_exact {dim : ℕ} {src center : ℕ → ℝ} {radius : ℝ} {fuel pos : ℕ} {r : List ℝ} {pos' : ℕ}
    (h : randInBall dim src center radius fuel pos = some (r, pos')) :
    r.length = dim ∧ ∑ i ∈ range dim, (r.getD i 0 - center i) ^ 2 ≤ radius ^ 2 ∧
    ∃ k, (r, pos') = randInBox dim src (fun i => center i - radius) (fun i => center i + radius) (pos + k * dim) ∧
      ∀ j, j < k → radius ^ 2 < ∑ i ∈ range dim, ((randInBox dim src (fun i => center i - radius) (fun i => center i + radius) (pos + j * dim)).1.getD i 0 - center i) ^ 2 := by
  obtain ⟨k, h1, h2, h3, h4⟩ := (doWhile_iff _ _ dim (fun p => by rw [randInBox_eq]) fuel pos (r, pos')).1 h
  have hlen : ∀ p, (randInBox dim src (fun i => center i - radius) (fun i => center i + radius) p).1.length = dim := fun p => by
    rw [randInBox_eq]; simp
  have hds : ∀ l : List ℝ, l.length = dim → distSqr center l = ∑ i ∈ range dim, (l.getD i 0 - center i) ^ 2 := by
    intro l hl
    rw [distSqr, hl, list_sum]
    simp only [sq]
  have hr : r.length = dim := by have := hlen (pos + k * dim); rwa [← h4] at this
  rw [← h4] at h3
  refine ⟨hr, ?_, k, h4, fun j hj => ?_⟩
  · rw [← hds r hr, sq]; exact not_lt.1 h3
  · rw [← hds _ (hlen _), sq]; exact h2 j hj

/-- All vectors of the ball that are below the upper corner of the box occur. -/
theorem ball_onto {center : ℕ → ℝ} {radius : ℝ} (hr : 0 < radius) {r : List ℝ} (h : ∑ i ∈ range r.length, (r.getD i 0 - center i) ^ 2 ≤ radius ^ 2)
    (hb : ∀ i, i < r.length → r.getD i 0 < center i + radius) :
    ∃ src : ℕ → ℝ, (∀ n, 0 ≤ src n ∧ src n < 1) ∧ randInBall r.length src center radius 1 0 = some (r, r.length) := by
  refine ⟨fun n => if n < r.length then (r.getD n 0 - (center n - radius)) / (2 * radius) else 0, fun n => ?_, ?_⟩
  · by_cases hn : n < r.length
    · simp only [if_pos hn]
      have h1 : (r.getD n 0 - center n) ^ 2 ≤ radius ^ 2 :=
        le_trans (single_le_sum (f := fun i => (r.getD i 0 - center i) ^ 2) (fun i _ => sq_nonneg _) (mem_range.2 hn)) h
      have h2 := abs_le.1 (abs_le_of_sq_le_sq h1 hr.le)
      have h3 := hb n hn
      exact ⟨div_nonneg (by linarith) (by linarith), by rw [div_lt_one (by linarith)]; linarith⟩
    · simp only [if_neg hn]; norm_num
  · have e : randInBox r.length (fun n => if n < r.length then (r.getD n 0 - (center n - radius)) / (2 * radius) else 0)
        (fun i => center i - radius) (fun i => center i + radius) 0 = (r, r.length) := by
      rw [randInBox_eq, Nat.zero_add]
      congr 1
      apply List.ext_getElem
      · simp
      · intro i h1 h2
        simp only [List.getElem_map, List.getElem_range, Nat.zero_add, if_pos h2, randReal, List.getD_eq_getElem?_getD, List.getElem?_eq_getElem h2,
          Option.getD_some]
        field_simp
        ring
    refine (doWhile_iff _ _ r.length (fun p => by rw [randInBox_eq]) 1 0 _).2 ⟨0, by omega, fun j hj => by omega, ?_, ?_⟩
    · rw [Nat.zero_mul, Nat.add_zero, e, distSqr, list_sum, ← sq]
      simp only [← sq]
      exact not_lt.2 h
    · rw [Nat.zero_mul, Nat.add_zero, e]

example : ∑ i ∈ range [(1 : ℝ), 2].length, ([(1 : ℝ), 2].getD i 0 - 0) ^ 2 ≤ 3 ^ 2 := by norm_num [sum_range_succ]

/-! ## Random rotations -/

/-- A random matrix in two dimensions is a rotation, and every rotation occurs. -/
theorem rotation2_exact : (∀ u, Rotation.IsRot (randRotation2 u)) ∧
    ∀ R, Rotation.IsRot R → ∃ u, 0 ≤ u ∧ u < 1 ∧ randRotation2 u = R := by
  refine ⟨fun u => ?_, fun R hR => ?_⟩
  · have := Real.sin_sq_add_cos_sq (randReal 0 (2 * Real.pi) u)
    constructor
    · ext i j
      fin_cases i <;> fin_cases j <;> simp [randRotation2, Matrix.mul_apply, Fin.sum_univ_two] <;> nlinarith
    · rw [randRotation2, Matrix.det_fin_two_of]; nlinarith
  · obtain ⟨h1, h2⟩ := hR
    have e : ∀ i j, (R * R.transpose) i j = (1 : Rotation.M 2) i j := fun i j => by rw [h1]
    have e00 := e 0 0
    have e11 := e 1 1
    simp only [Matrix.mul_apply, Fin.sum_univ_two, Matrix.transpose_apply, Matrix.one_apply_eq] at e00 e11
    rw [Matrix.det_fin_two] at h2
    have hz : (R 0 0 - R 1 1) ^ 2 + (R 0 1 + R 1 0) ^ 2 = 0 := by nlinarith
    have hd : R 1 1 = R 0 0 := by nlinarith [sq_nonneg (R 0 0 - R 1 1), sq_nonneg (R 0 1 + R 1 0)]
    have hb : R 0 1 = -R 1 0 := by nlinarith [sq_nonneg (R 0 0 - R 1 1), sq_nonneg (R 0 1 + R 1 0)]
    obtain ⟨u, hu0, hu1, hc, hs⟩ := angle_onto (c := R 0 0) (s := R 1 0) (by rw [hb] at e00; linarith)
    refine ⟨u, hu0, hu1, ?_⟩
    ext i j
    fin_cases i <;> fin_cases j <;> simp [randRotation2, hc, hs, hd, hb]

/-- A random matrix in three dimensions is a rotation, unless the four numbers are all zero. -/
theorem rotation3_exact {q : Rotation.V 4} (h : q ≠ 0) : Rotation.IsRot (randRotation3 q) := Rotation.ofQuat_isRot (nsq4_unit h)

end Verif.Sampling
