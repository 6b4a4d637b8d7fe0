import Verif.Proof.MathUtils

/-!
Properties of `sqrtNewtonRaphson`, the logarithm quotients and the prefix sums.
-/
namespace Verif.MathUtils
open Verif.Elastic

/-! ## The square root -/

/-- The iteration ends, after a number of steps logarithmic in the ratio of the argument to the tolerance, and more time does not change the result. -/
theorem sqrt_ends {eps relTol n : ℝ} (h0 : 0 < eps) (hn : eps ≤ n) {K : Nat} (hK : (1 + n) / 2 ≤ max (n * relTol) eps * 2 ^ K) :
    ∃ x, ∀ fuel, K + 2 ≤ fuel → sqrtNewtonRaphson fuel eps relTol n = .val x := by
  have hp : 0 < n := by linarith
  have hs := Real.sqrt_pos.2 hp
  have hs2 := Real.mul_self_sqrt hp.le
  have hf := (newton_step one_pos hs hs2).2.2
  have key : ∃ x, newtonLoop n (max (n * relTol) eps) (K + 2) 1 = .val x := by
    by_cases hc : |0.5 * (1 + n / 1) - 1| > max (n * relTol) eps
    · obtain ⟨x, hx⟩ := newtonLoop_ends (tol := max (n * relTol) eps) hs hs2 K hf (by
        rw [div_one] at *
        linarith)
      refine ⟨x, ?_⟩
      rw [newtonLoop, if_pos hc]; exact hx
    · refine ⟨0.5 * (1 + n / 1), ?_⟩
      rw [newtonLoop, if_neg hc]
  obtain ⟨x, hx⟩ := key
  refine ⟨x, fun fuel hle => ?_⟩
  rw [sqrtNewtonRaphson, if_neg (by linarith), if_neg (by linarith)]
  exact newtonLoop_mono _ hle hx

/-- The result is not below the root, and above it by no more than the tolerance; far above the tolerance by no more than a quadratic term. -/
theorem sqrt_close {eps relTol n x : ℝ} {fuel : Nat} (h0 : 0 < eps) (hn : eps ≤ n) (h : sqrtNewtonRaphson fuel eps relTol n = .val x) :
    0 < x ∧ Real.sqrt n ≤ x ∧ x - Real.sqrt n ≤ max (n * relTol) eps ∧
      x - Real.sqrt n ≤ max (n * relTol) eps * max (n * relTol) eps / (2 * Real.sqrt n) := by
  have hp : 0 < n := by linarith
  have hs := Real.sqrt_pos.2 hp
  have hs2 := Real.mul_self_sqrt hp.le
  rw [sqrtNewtonRaphson, if_neg (by linarith), if_neg (by linarith)] at h
  have ht : 0 < max (n * relTol) eps := lt_of_lt_of_le h0 (le_max_right _ _)
  obtain ⟨y, hy, rfl, hd⟩ := newtonLoop_val hs hs2 fuel one_pos h
  obtain ⟨e1, e2, e3⟩ := newton_step hy hs hs2
  generalize max (n * relTol) eps = tol at *
  generalize Real.sqrt n = s at *
  have hdd : |s - y| * (s + y) ≤ tol * (2 * y) := by
    rw [e2, abs_div, abs_mul, abs_of_pos (show (0 : ℝ) < s + y by linarith), abs_of_pos (show (0 : ℝ) < 2 * y by linarith), div_le_iff₀ (by linarith)] at hd
    exact hd
  have hsq : (y - s) * (y - s) = |s - y| * |s - y| := by rw [abs_mul_abs_self]; ring
  have hle : |s - y| ≤ s + y := by rw [abs_le]; constructor <;> linarith
  have ha := abs_nonneg (s - y)
  refine ⟨by linarith, e3, ?_, ?_⟩
  · rw [e1, div_le_iff₀ (by linarith), hsq]
    nlinarith
  · rw [e1, div_le_div_iff₀ (by linarith) (by linarith), hsq]
    -- |s-y|² (2s) (s+y)² ≤ tol² (2y)² (2s) ≤ tol² (2y) (s+y)²
    have h1 : (|s - y| * (s + y)) * (|s - y| * (s + y)) ≤ (tol * (2 * y)) * (tol * (2 * y)) :=
      mul_self_le_mul_self (mul_nonneg ha (by linarith)) hdd
    have h2 : 4 * s * y ≤ (s + y) * (s + y) := by nlinarith [mul_self_nonneg (s - y)]
    have hpos : 0 < (s + y) * (s + y) := by nlinarith
    refine le_of_mul_le_mul_right ?_ hpos
    calc |s - y| * |s - y| * (2 * s) * ((s + y) * (s + y)) = (|s - y| * (s + y)) * (|s - y| * (s + y)) * (2 * s) := by ring
      _ ≤ (tol * (2 * y)) * (tol * (2 * y)) * (2 * s) := mul_le_mul_of_nonneg_right h1 (by linarith)
      _ = tol * tol * (2 * y) * (4 * s * y) := by ring
      _ ≤ tol * tol * (2 * y) * ((s + y) * (s + y)) := mul_le_mul_of_nonneg_left h2 (by positivity)

/-- The relative error is small as long as the argument times the square of `relTol` is.
Missing: arguments below `eps` and large arguments, see `sqrt_small_violated` and `sqrt_large_violated`. -/
theorem sqrt_relative_partial {eps relTol n x : ℝ} {fuel : Nat} (h0 : 0 < eps) (hn : eps ≤ n)
    (h : sqrtNewtonRaphson fuel eps relTol n = .val x) : |x - Real.sqrt n| ≤ max (n * (relTol * relTol) / 2) (eps / 2) * Real.sqrt n := by
  obtain ⟨_, h1, _, h2⟩ := sqrt_close h0 hn h
  have hp : 0 < n := by linarith
  have hs := Real.sqrt_pos.2 hp
  have hs2 := Real.mul_self_sqrt hp.le
  rw [abs_of_nonneg (by linarith)]
  refine h2.trans ?_
  rw [div_le_iff₀ (by linarith)]
  have e : max (n * (relTol * relTol) / 2) (eps / 2) * Real.sqrt n * (2 * Real.sqrt n) = max (n * (relTol * relTol) / 2) (eps / 2) * (2 * n) := by
    linear_combination 2 * max (n * (relTol * relTol) / 2) (eps / 2) * hs2
  rw [e]
  rcases le_total (n * relTol) eps with hc | hc
  · rw [max_eq_right hc]
    have := mul_le_mul_of_nonneg_right (le_max_right (n * (relTol * relTol) / 2) (eps / 2)) (show 0 ≤ 2 * n by linarith)
    nlinarith
  · rw [max_eq_left hc]
    have := mul_le_mul_of_nonneg_right (le_max_left (n * (relTol * relTol) / 2) (eps / 2)) (show 0 ≤ 2 * n by linarith)
    nlinarith

/-- Arguments outside the domain. -/
theorem sqrt_rest {eps relTol n : ℝ} (fuel : Nat) : (n < -eps → sqrtNewtonRaphson fuel eps relTol n = .nan) ∧
    (-eps ≤ n → n < eps → sqrtNewtonRaphson fuel eps relTol n = .val 0) := by
  constructor
  · intro h; rw [sqrtNewtonRaphson, if_pos h]
  · intro h1 h2; rw [sqrtNewtonRaphson, if_neg (not_lt.2 h1), if_pos h2]

/-- With the default tolerance of single precision the root of 10¹⁴ comes out more than twice too large: the tolerance is relative to the argument, not to the root. -/
theorem sqrt_large_violated {eps : ℝ} (h0 : 0 < eps) (h1 : eps ≤ 1) :
    ∃ x, (∀ fuel, 40 ≤ fuel → sqrtNewtonRaphson fuel eps 1e-6 1e14 = .val x) ∧ 2 * Real.sqrt 1e14 < x := by
  have hm : max ((1e14 : ℝ) * 1e-6) eps = 1e8 := by rw [max_eq_left] <;> norm_num; linarith
  obtain ⟨x, hx⟩ := sqrt_ends (relTol := 1e-6) (n := 1e14) (K := 38) h0 (by norm_num; linarith) (by rw [hm]; norm_num)
  refine ⟨x, hx, ?_⟩
  have hs : Real.sqrt 1e14 = 1e7 := by rw [show (1e14 : ℝ) = 1e7 * 1e7 by norm_num]; exact Real.sqrt_mul_self (by norm_num)
  have h := hx 40 le_rfl
  rw [sqrtNewtonRaphson, if_neg (by norm_num; linarith), if_neg (by norm_num; linarith), hm] at h
  have := newtonLoop_ge (s := 1e7) (by norm_num) (by norm_num) 40 one_pos (by norm_num) h
  rw [hs]
  norm_num at *
  linarith

/-- The root of every positive number below `eps` comes out as zero. -/
theorem sqrt_small_violated {eps : ℝ} (h0 : 0 < eps) (relTol : ℝ) (fuel : Nat) :
    ∃ n, 0 < Real.sqrt n ∧ sqrtNewtonRaphson fuel eps relTol n = .val 0 :=
  ⟨eps / 2, Real.sqrt_pos.2 (by linarith), (sqrt_rest fuel).2 (by linarith) (by linarith)⟩

/-! ## Logarithms -/

/-- The quotient is exact outside the interval around zero, and inside differs by a term of fourth order. -/
theorem log_quotient {eps x : ℝ} (he : eps ≤ 1) :
    (eps ≤ |x| → 0 < eps → x * log1pxOverX eps x = Real.log (1 + x)) ∧
    (|x| < eps → |x * log1pxOverX eps x - Real.log (1 + x)| ≤ |x| ^ 5 / (1 - |x|)) ∧ (0 < eps → log1pxOverX eps 0 = 1) := by
  refine ⟨?_, ?_, ?_⟩
  · intro h h0
    have hx : x ≠ 0 := by rintro rfl; rw [abs_zero] at h; linarith
    unfold log1pxOverX
    rw [if_neg (not_lt.2 h)]; field_simp
  · intro h
    have := Real.abs_log_sub_add_sum_range_le (x := -x) (by rw [abs_neg]; linarith) 4
    rw [abs_neg, sub_neg_eq_add] at this
    unfold log1pxOverX
    rw [if_pos h]
    rw [← abs_neg]
    refine le_trans (le_of_eq ?_) this
    congr 1
    simp [Finset.sum_range_succ]
    ring
  · intro h; unfold log1pxOverX; rw [if_pos (by simpa using h)]; norm_num

/-- The difference quotient of the logarithm: exact unless the arguments are close, then of fourth order, with the derivative at equal arguments. -/
theorem log_difference {eps x y : ℝ} (he : eps ≤ 1) (hx : 0 < x) (hy : 0 < y) :
    (eps ≤ |x / y - 1| → 0 < eps → (x - y) * diffLog eps x y = Real.log x - Real.log y) ∧
    (|x / y - 1| < eps → |(x - y) * diffLog eps x y - (Real.log x - Real.log y)| ≤ |x / y - 1| ^ 5 / (1 - |x / y - 1|)) ∧
    (0 < eps → diffLog eps y y = 1 / y) := by
  obtain ⟨h1, h2, h3⟩ := log_quotient (x := x / y - 1) he
  have e1 : (x - y) * diffLog eps x y = (x / y - 1) * log1pxOverX eps (x / y - 1) := by unfold diffLog; field_simp
  have e2 : Real.log (1 + (x / y - 1)) = Real.log x - Real.log y := by rw [← Real.log_div hx.ne' hy.ne']; congr 1; ring
  rw [e1, ← e2]
  refine ⟨h1, h2, fun h => ?_⟩
  unfold diffLog
  rw [div_self hy.ne', sub_self, h3 h]

/-- The interlocked quotient. -/
theorem log_interlock {eps x y : ℝ} (he : eps ≤ 1) (hx : 0 < x) (hy : 0 < y) :
    (eps ≤ |x / y - 1| → 0 < eps → (x - y) * diffInterlock eps x y (Real.log y) = x * Real.log y - y * Real.log x) ∧
    (|x / y - 1| < eps → |(x - y) * diffInterlock eps x y (Real.log y) - (x * Real.log y - y * Real.log x)| ≤ y * (|x / y - 1| ^ 5 / (1 - |x / y - 1|))) ∧
    (0 < eps → diffInterlock eps y y (Real.log y) = Real.log y - 1) := by
  obtain ⟨h1, h2, h3⟩ := log_difference he hx hy
  unfold diffInterlock
  refine ⟨fun a b => ?_, fun a => ?_, fun b => ?_⟩
  · linear_combination (-y) * h1 a b
  · have e : (x - y) * (Real.log y - y * diffLog eps x y) - (x * Real.log y - y * Real.log x) = -(y * ((x - y) * diffLog eps x y - (Real.log x - Real.log y))) := by ring
    rw [e, abs_neg, abs_mul, abs_of_pos hy]
    exact mul_le_mul_of_nonneg_left (h2 a) hy.le
  · rw [h3 b]; field_simp

/-! ## Prefix sums -/

/-- Sums up to and before an index, product after it. -/
theorem prefix_sums (I : Nat) (l : List Int) :
    inclPrefixSum I l = (l.take (I + 1)).sum ∧ exclPrefixSum I l = (l.take I).sum ∧ exclSuffixMul I l = (l.drop (I + 1)).prod := by
  refine ⟨?_, ?_, ?_⟩
  · rw [← fold_take (I + 1) l 0]
    unfold inclPrefixSum
    congr 2
    funext p
    congr 1
    push_cast
    rw [eq_iff_iff]; omega
  · rw [← fold_take I l 0]
    unfold exclPrefixSum
    congr 2
    funext p
    congr 1
    push_cast
    rw [eq_iff_iff]; omega
  · rw [← fold_drop (I + 1) l 0]
    unfold exclSuffixMul
    congr 2
    funext p
    congr 1
    push_cast
    rw [eq_iff_iff]; omega

/-! ## The hypotheses are met -/

/-- The root of two, to four digits. -/
example : ∃ x, (∀ fuel, 20 ≤ fuel → sqrtNewtonRaphson fuel 0.0001 1e-6 2 = .val x) ∧ |x - Real.sqrt 2| ≤ 0.00005 * Real.sqrt 2 := by
  obtain ⟨x, hx⟩ := sqrt_ends (eps := 0.0001) (relTol := 1e-6) (n := 2) (K := 14) (by norm_num) (by norm_num) (by
    have := le_max_right ((2 : ℝ) * 1e-6) 0.0001
    nlinarith)
  refine ⟨x, fun f hf => hx f (by omega), ?_⟩
  have := sqrt_relative_partial (by norm_num) (by norm_num) (hx 20 (by omega))
  rw [max_eq_right (by norm_num)] at this
  norm_num at *
  exact this

example : exclPrefixSum 2 [5, 7, 11, 13] = 12 ∧ inclPrefixSum 2 [5, 7, 11, 13] = 23 ∧ exclSuffixMul 1 [5, 7, 11, 13] = 143 := by decide

end Verif.MathUtils
