import Verif.Model.Sampling
import Verif.Spec.Sampling
import Verif.Proof.Rotation
import Mathlib.Probability.Distributions.Gaussian.Real
import Mathlib.Probability.Distributions.Poisson.Basic
import Mathlib.Analysis.Real.Pi.Bounds
import Mathlib.Tactic.FieldSimp
import Mathlib.Tactic.Positivity

/-!
Helpers for sampling.
-/
namespace Verif.Sampling

open Finset

/-! ## Searching -/

/-- The value of `cdf` when `x` has gone from `x` to `x + k`. -/
def cum (pdf : ℕ → ℝ) (x : ℕ) (c : ℝ) (k : ℕ) : ℝ := c + ∑ i ∈ range k, pdf (x + i + 1)

theorem cum_succ' (pdf : ℕ → ℝ) (x : ℕ) (c : ℝ) (k : ℕ) : cum pdf x c (k + 1) = cum pdf (x + 1) (c + pdf (x + 1)) k := by
  unfold cum
  have h : ∑ i ∈ range k, pdf (x + (i + 1) + 1) = ∑ i ∈ range k, pdf (x + 1 + i + 1) := by
    apply sum_congr rfl
    intro i _
    congr 1
    omega
  rw [sum_range_succ', h]
  simp only [Nat.add_zero]
  ring

theorem search_iff (pdf : ℕ → ℝ) (v : ℝ) (fuel x : ℕ) (c : ℝ) (y : ℕ) :
    search pdf v fuel x c = some y ↔ ∃ k, k < fuel ∧ y = x + k ∧ (∀ j, j < k → cum pdf x c j ≤ v) ∧ v < cum pdf x c k := by
  induction fuel generalizing x c with
  | zero => simp [search]
  | succ n ih =>
    have h0 : cum pdf x c 0 = c := by simp [cum]
    rw [search]
    by_cases hc : v ≥ c
    · rw [if_pos hc, ih]
      constructor
      · rintro ⟨k, h1, h2, h3, h4⟩
        refine ⟨k + 1, by omega, by omega, fun j hj => ?_, by rw [cum_succ']; exact h4⟩
        cases j with
        | zero => rw [h0]; exact hc
        | succ j => rw [cum_succ']; exact h3 j (by omega)
      · rintro ⟨k, h1, h2, h3, h4⟩
        cases k with
        | zero => rw [h0] at h4; exact absurd hc (not_le.2 h4)
        | succ k =>
          refine ⟨k, by omega, by omega, fun j hj => ?_, by rw [← cum_succ']; exact h4⟩
          rw [← cum_succ']; exact h3 (j + 1) (by omega)
    · rw [if_neg hc]
      constructor
      · intro h
        cases h
        exact ⟨0, by omega, rfl, fun j hj => by omega, by rw [h0]; exact not_le.1 hc⟩
      · rintro ⟨k, h1, h2, h3, h4⟩
        cases k with
        | zero => rw [h2]; rfl
        | succ k => exact absurd (by have := h3 0 (by omega); rwa [h0] at this) hc

theorem search_none (pdf : ℕ → ℝ) (v : ℝ) (c : ℝ) (h : ∀ k, cum pdf 0 c k ≤ v) (fuel : ℕ) : search pdf v fuel 0 c = none := by
  rw [Option.eq_none_iff_forall_ne_some]
  intro y hy
  obtain ⟨k, _, _, _, h4⟩ := (search_iff ..).1 hy
  exact absurd (h k) (not_le.2 h4)

/-! ## The Poisson distribution -/

theorem poissonPdf_eq (lam : ℤ) (k : ℕ) : poissonPdf lam k = Real.exp (-lam) * (lam : ℝ) ^ k / k.factorial := by
  unfold poissonPdf
  have : (List.range k).foldl (fun (pdf : ℝ) (i : ℕ) => pdf * ((lam : ℝ) / ((i : ℝ) + 1))) 1 = (lam : ℝ) ^ k / k.factorial := by
    induction k with
    | zero => simp
    | succ k ih =>
      rw [List.range_succ, List.foldl_append, ih]
      simp only [List.foldl_cons, List.foldl_nil, Nat.factorial_succ, Nat.cast_mul, Nat.cast_add, Nat.cast_one]
      have : (k.factorial : ℝ) ≠ 0 := by exact_mod_cast k.factorial_ne_zero
      have : (k : ℝ) + 1 ≠ 0 := by positivity
      field_simp
      ring
  rw [this, neg_one_mul]
  ring

theorem pmf_nonneg (lam : NNReal) (k : ℕ) : 0 ≤ pmf lam k := by unfold pmf; positivity

theorem pmf_hasSum (lam : NNReal) : HasSum (pmf lam) 1 := ProbabilityTheory.hasSum_one_poissonMeasure lam

theorem sum_mono {f : ℕ → ℝ} (h : ∀ i, 0 ≤ f i) {m n : ℕ} (hmn : m ≤ n) : ∑ i ∈ range m, f i ≤ ∑ i ∈ range n, f i :=
  sum_le_sum_of_subset_of_nonneg (range_mono hmn) fun i _ _ => h i

theorem pmf_sum_le (lam : NNReal) (n : ℕ) : ∑ i ∈ range n, pmf lam i ≤ 1 :=
  sum_le_hasSum _ (fun i _ => pmf_nonneg lam i) (pmf_hasSum lam)

theorem pmf_sum_exceeds (lam : NNReal) {u : ℝ} (h : u < 1) : ∃ n, u < ∑ i ∈ range n, pmf lam i :=
  (((pmf_hasSum lam).tendsto_sum_nat).eventually (lt_mem_nhds h)).exists

theorem toInt_nat (n : ℕ) : toInt (n : ℝ) = n := by
  rw [toInt, if_pos (Nat.cast_nonneg n)]
  exact Int.floor_natCast n

theorem cum_pmf (n k : ℕ) : cum (poissonPdf (toInt n)) 0 (Real.exp (-1 * n)) k = ∑ i ∈ range (k + 1), pmf n i := by
  rw [cum, sum_range_succ', add_comm]
  congr 1
  · apply sum_congr rfl
    intro i _
    rw [poissonPdf_eq, toInt_nat, Nat.zero_add]
    simp [pmf]
  · simp [pmf]

/-! ## The normal distribution -/

theorem normalPdf_eq (u : ℝ) {o : NNReal} (ho : o ≠ 0) (x : ℕ) : normalPdf u o x = ProbabilityTheory.gaussianPDFReal u (o ^ 2) x := by
  have ho' : (0 : ℝ) < o := by exact_mod_cast pos_of_ne_zero ho
  unfold normalPdf ProbabilityTheory.gaussianPDFReal
  rw [NNReal.coe_pow, Real.sqrt_mul (x := 2 * Real.pi) (by positivity) ((o : ℝ) ^ 2), Real.sqrt_sq ho'.le]
  have e : -((x : ℝ) - u) * (x - u) / 2 / o / o = -((x : ℝ) - u) ^ 2 / (2 * (o : ℝ) ^ 2) := by field_simp
  rw [e, div_div, one_div]

theorem sqrt_two_pi : 2.4 ≤ Real.sqrt (2 * Real.pi) := by
  apply Real.le_sqrt_of_sq_le
  have := Real.pi_gt_three
  norm_num
  linarith

theorem normalPdf_nonneg {u o : ℝ} (ho : 0 < o) (x : ℕ) : 0 ≤ normalPdf u o x := by
  unfold normalPdf; positivity

theorem normalPdf_le {u o : ℝ} (ho : 1 ≤ o) (x : ℕ) : normalPdf u o x ≤ 5 / 12 := by
  unfold normalPdf
  have h1 : Real.exp (-((x : ℝ) - u) * (x - u) / 2 / o / o) ≤ 1 := by
    rw [Real.exp_le_one_iff]
    have : -((x : ℝ) - u) * (x - u) / 2 / o / o = -(((x : ℝ) - u) ^ 2 / (2 * o ^ 2)) := by field_simp
    rw [this]
    have : 0 ≤ ((x : ℝ) - u) ^ 2 / (2 * o ^ 2) := by positivity
    linarith
  have h2 : 1 / Real.sqrt (2 * Real.pi) / o ≤ 5 / 12 := by
    rw [div_div, div_le_iff₀ (by positivity)]
    have := sqrt_two_pi
    nlinarith
  have h3 : 0 ≤ 1 / Real.sqrt (2 * Real.pi) / o := by positivity
  calc _ ≤ (5 / 12 : ℝ) * 1 := by apply mul_le_mul h2 h1 (Real.exp_pos _).le (by norm_num)
    _ = _ := by norm_num

theorem standard_le (i : ℕ) : normalPdf 0 1 (i + 1) ≤ 5 / 12 * (2 / 3) ^ (i + 1) := by
  unfold normalPdf
  have hr : Real.exp (-(1 / 2)) ≤ 2 / 3 := by
    rw [Real.exp_neg, inv_le_comm₀ (Real.exp_pos _) (by norm_num)]
    have := Real.add_one_le_exp (1 / 2 : ℝ)
    norm_num at this ⊢
    linarith
  have h1 : Real.exp (-(((i + 1 : ℕ) : ℝ) - 0) * (((i + 1 : ℕ) : ℝ) - 0) / 2 / 1 / 1) ≤ (2 / 3) ^ (i + 1) := by
    calc _ ≤ Real.exp (((i + 1 : ℕ) : ℝ) * -(1 / 2)) := by
          apply Real.exp_le_exp.2
          push_cast
          have : (0 : ℝ) ≤ i := Nat.cast_nonneg i
          nlinarith
      _ = Real.exp (-(1 / 2)) ^ (i + 1) := Real.exp_nat_mul _ _
      _ ≤ _ := by gcongr
  have h2 : 1 / Real.sqrt (2 * Real.pi) / 1 ≤ 5 / 12 := by
    rw [div_one, div_le_iff₀ (by positivity)]
    have := sqrt_two_pi
    linarith
  exact mul_le_mul h2 h1 (Real.exp_pos _).le (by norm_num)

theorem standard_sum (k : ℕ) : ∑ i ∈ range k, normalPdf 0 1 (0 + i + 1) ≤ 5 / 6 := by
  have h : ∀ k : ℕ, ∑ i ∈ range k, (5 / 12 : ℝ) * (2 / 3) ^ (i + 1) = 5 / 6 * (1 - (2 / 3) ^ k) := by
    intro k
    induction k with
    | zero => simp
    | succ k ih => rw [sum_range_succ, ih]; ring
  calc _ ≤ ∑ i ∈ range k, (5 / 12 : ℝ) * (2 / 3) ^ (i + 1) := sum_le_sum fun i _ => by rw [Nat.zero_add]; exact standard_le i
    _ = 5 / 6 * (1 - (2 / 3) ^ k) := h k
    _ ≤ 5 / 6 := by have : (0 : ℝ) ≤ (2 / 3) ^ k := by positivity
                    linarith

/-! ## Boxes, weights and balls -/

theorem randInBox_eq (dim : ℕ) (src : ℕ → ℝ) (lo hi : ℕ → ℝ) (pos : ℕ) :
    randInBox dim src lo hi pos = ((List.range dim).map fun i => randReal (lo i) (hi i) (src (pos + i)), pos + dim) := by
  unfold randInBox
  induction dim with
  | zero => rfl
  | succ n ih => rw [List.range_succ, List.foldl_append, ih]; simp [boxStep, Nat.add_assoc]

theorem weightRound_eq (n : ℕ) (src : ℕ → ℝ) (pos : ℕ) : (List.range n).foldl (weightStep src) (([], 0), pos) =
    (((List.range n).map fun i => src (pos + i), ((List.range n).map fun i => src (pos + i)).sum), pos + n) := by
  induction n with
  | zero => rfl
  | succ n ih => rw [List.range_succ, List.foldl_append, ih]; simp [weightStep, Nat.add_assoc]

theorem doWhile_iff {β : Type} (round : ℕ → β × ℕ) (again : β → Prop) (d : ℕ) (hd : ∀ p, (round p).2 = p + d) (fuel pos : ℕ) (r : β × ℕ) :
    doWhile round again fuel pos = some r ↔
      ∃ k, k < fuel ∧ (∀ j, j < k → again (round (pos + j * d)).1) ∧ ¬again (round (pos + k * d)).1 ∧ r = round (pos + k * d) := by
  induction fuel generalizing pos with
  | zero => simp [doWhile]
  | succ n ih =>
    have hs : ∀ k, pos + d + k * d = pos + (k + 1) * d := fun k => by rw [Nat.add_mul]; omega
    rw [doWhile]
    by_cases hc : again (round pos).1
    · rw [if_pos hc, ih, hd]
      simp only [hs]
      constructor
      · rintro ⟨k, h1, h2, h3⟩
        refine ⟨k + 1, by omega, fun j hj => ?_, h3⟩
        cases j with
        | zero => simpa using hc
        | succ j => exact h2 j (by omega)
      · rintro ⟨k, h1, h2, h3, h4⟩
        cases k with
        | zero => simp at h3; exact absurd hc h3
        | succ k => exact ⟨k, by omega, fun j hj => h2 (j + 1) (by omega), h3, h4⟩
    · rw [if_neg hc]
      constructor
      · intro h
        cases h
        exact ⟨0, by omega, fun j hj => by omega, by simpa using hc, by simp⟩
      · rintro ⟨k, h1, h2, h3, h4⟩
        cases k with
        | zero => simp [h4]
        | succ k => exact absurd (by have := h2 0 (by omega); simpa using this) hc

theorem list_sum (n : ℕ) (f : ℕ → ℝ) : ((List.range n).map f).sum = ∑ i ∈ range n, f i := by
  induction n with
  | zero => simp
  | succ n ih => rw [List.range_succ, sum_range_succ, List.map_append, List.sum_append, ih]; simp

theorem angle_onto {c s : ℝ} (h : c * c + s * s = 1) : ∃ u, 0 ≤ u ∧ u < 1 ∧ Real.cos (randReal 0 (2 * Real.pi) u) = c ∧
    Real.sin (randReal 0 (2 * Real.pi) u) = s := by
  have hpi := Real.pi_pos
  obtain ⟨h1, h2⟩ := Rotation.atan2_spec (x := c) (y := s) (s := 1) one_pos (by linarith)
  rw [div_one] at h1 h2
  have l : -Real.pi < Rotation.atan2 s c := Complex.neg_pi_lt_arg _
  have g : Rotation.atan2 s c ≤ Real.pi := Complex.arg_le_pi _
  generalize Rotation.atan2 s c = a at *
  by_cases ha : 0 ≤ a
  · have e : randReal 0 (2 * Real.pi) (a / (2 * Real.pi)) = a := by unfold randReal; field_simp; ring
    refine ⟨a / (2 * Real.pi), by positivity, by rw [div_lt_one (by positivity)]; linarith, ?_, ?_⟩ <;> rw [e] <;> assumption
  · have e : randReal 0 (2 * Real.pi) ((a + 2 * Real.pi) / (2 * Real.pi)) = a + 2 * Real.pi := by unfold randReal; field_simp; ring
    refine ⟨(a + 2 * Real.pi) / (2 * Real.pi), div_nonneg (by linarith) (by positivity), by rw [div_lt_one (by positivity)]; linarith, ?_, ?_⟩ <;> rw [e]
    · rw [Real.cos_add_two_pi]; exact h1
    · rw [Real.sin_add_two_pi]; exact h2

theorem nsq4_unit {q : Rotation.V 4} (h : q ≠ 0) : Rotation.nsq4 (Rotation.unit4 q) = 1 := by
  have hpos : 0 < Rotation.nsq4 q := by
    by_contra hc
    apply h
    unfold Rotation.nsq4 at hc
    have h0 := mul_self_nonneg (q 0)
    have h1 := mul_self_nonneg (q 1)
    have h2 := mul_self_nonneg (q 2)
    have h3 := mul_self_nonneg (q 3)
    funext i
    have h0' : q 0 * q 0 = 0 := by linarith
    have h1' : q 1 * q 1 = 0 := by linarith
    have h2' : q 2 * q 2 = 0 := by linarith
    have h3' : q 3 * q 3 = 0 := by linarith
    fin_cases i
    · exact mul_self_eq_zero.1 h0'
    · exact mul_self_eq_zero.1 h1'
    · exact mul_self_eq_zero.1 h2'
    · exact mul_self_eq_zero.1 h3'
  have hs : Real.sqrt (Rotation.nsq4 q) ≠ 0 := (Real.sqrt_pos.2 hpos).ne'
  have e : Rotation.nsq4 (Rotation.unit4 q) = Rotation.nsq4 q / (Real.sqrt (Rotation.nsq4 q) * Real.sqrt (Rotation.nsq4 q)) := by
    have g : ∀ s : ℝ, s ≠ 0 → Rotation.nsq4 (fun i => q i / s) = Rotation.nsq4 q / (s * s) := by
      intro s hs; simp only [Rotation.nsq4]; field_simp
    exact g _ hs
  rw [e, Real.mul_self_sqrt hpos.le, div_self hpos.ne']

end Verif.Sampling
