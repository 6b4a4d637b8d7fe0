import Verif.Model.Elastic
import Mathlib.Analysis.SpecialFunctions.Log.Deriv
import Mathlib.Tactic.IntervalCases
import Mathlib.Tactic.FieldSimp
import Mathlib.Tactic.LinearCombination

/-! Helper lemmas for C78: derivatives with respect to one singular value. -/
namespace Verif.Elastic

open Verif.Mat (forN upd)

theorem log_deriv {c x : ℝ} (hc : c ≠ 0) (hx : x ≠ 0) : HasDerivAt (fun y => Real.log (c * y)) (1 / x) x := by
  have h := ((hasDerivAt_id x).const_mul c).log (mul_ne_zero hc hx)
  refine h.congr_deriv ?_
  simp only [id]; field_simp

theorem inv_deriv {x : ℝ} (hx : x ≠ 0) : HasDerivAt (fun y => 1 / y) (-(1 / (x * x))) x := by
  have h := hasDerivAt_inv hx
  simp only [one_div]
  refine h.congr_deriv ?_
  rw [pow_two]

theorem sq_deriv (x : ℝ) : HasDerivAt (fun y => y * y) (2 * x) x := by
  refine ((hasDerivAt_id x).mul (hasDerivAt_id x)).congr_deriv ?_
  simp only [id]; ring

theorem nh_psi_deriv (mu lam k d : ℝ) {c x : ℝ} (hc : c ≠ 0) (hx : x ≠ 0) :
    HasDerivAt (fun y => 1 / 2 * mu * (k + y * y - d) - (mu - 1 / 2 * lam * Real.log (c * y)) * Real.log (c * y))
      (mu * (x - 1 / x) + lam * (1 / x) * Real.log (c * x)) x := by
  have hl := log_deriv hc hx
  have h := ((((sq_deriv x).const_add k).sub_const d).const_mul (1 / 2 * mu)).sub (((hl.const_mul (1 / 2 * lam)).const_sub mu).mul hl)
  refine h.congr_deriv ?_
  ring

theorem nh_dpsi_diag (mu lam : ℝ) {c x : ℝ} (hc : c ≠ 0) (hx : x ≠ 0) :
    HasDerivAt (fun y => mu * (y - 1 / y) + lam * (1 / y) * Real.log (c * y))
      (mu * (1 + 1 / (x * x)) - lam * (1 / (x * x)) * (Real.log (c * x) - 1)) x := by
  have hl := log_deriv hc hx
  have h := (((hasDerivAt_id x).sub (inv_deriv hx)).const_mul mu).add (((inv_deriv hx).const_mul lam).mul hl)
  refine h.congr_deriv ?_
  field_simp; ring

theorem nh_dpsi_off (lam p s : ℝ) {c x : ℝ} (hc : c ≠ 0) (hx : x ≠ 0) :
    HasDerivAt (fun y => p + lam * (1 / s) * Real.log (c * y)) (lam / (s * x)) x := by
  refine (((log_deriv hc hx).const_mul (lam * (1 / s))).const_add p).congr_deriv ?_
  simp only [div_eq_mul_inv, mul_inv]; ring

theorem fcr_psi_deriv (mu lam k c x : ℝ) :
    HasDerivAt (fun y => mu * (k + (y - 1) * (y - 1)) + 1 / 2 * lam * (c * y - 1) * (c * y - 1)) ((mu + mu) * (x - 1) + lam * (c * x - 1) * c) x := by
  have h1 := (hasDerivAt_id x).sub_const 1
  have h2 := ((hasDerivAt_id x).const_mul c).sub_const 1
  have h := (((h1.mul h1).const_add k).const_mul mu).add (((h2.const_mul (1 / 2 * lam))).mul h2)
  refine h.congr_deriv ?_
  simp only [id]; ring

theorem lin_deriv {f : ℝ → ℝ} (a b x : ℝ) (h : ∀ y, f y = a + b * y) : HasDerivAt f b x := by
  have : f = fun y => a + b * y := funext h
  rw [this]
  refine (((hasDerivAt_id x).const_mul b).const_add a).congr_deriv ?_
  ring

theorem quad_deriv {f : ℝ → ℝ} (a b c x : ℝ) (h : ∀ y, f y = a + b * y + c * (y * y)) : HasDerivAt f (b + 2 * c * x) x := by
  have : f = fun y => a + b * y + c * (y * y) := funext h
  rw [this]
  refine ((((hasDerivAt_id x).const_mul b).const_add a).add ((sq_deriv x).const_mul c)).congr_deriv ?_
  ring

theorem logabs_deriv {x : ℝ} (hx : x ≠ 0) : HasDerivAt (fun y => Real.log |y|) (1 / x) x := by
  simp only [Real.log_abs, one_div]
  exact Real.hasDerivAt_log hx

theorem stvk_psi_deriv (mu lam k t : ℝ) {x : ℝ} (hx : x ≠ 0) :
    HasDerivAt (fun y => mu * (k + Real.log |y| * Real.log |y|) + 1 / 2 * lam * (t + Real.log |y|) * (t + Real.log |y|))
      (((mu + mu) * Real.log |x| + lam * (t + Real.log |x|)) / x) x := by
  have hl := logabs_deriv hx
  have h := (((hl.mul hl).const_add k).const_mul mu).add (((hl.const_add t).const_mul (1 / 2 * lam)).mul (hl.const_add t))
  refine h.congr_deriv ?_
  field_simp; ring

theorem stvk_dpsi_diag (mu lam t : ℝ) {x : ℝ} (hx : x ≠ 0) :
    HasDerivAt (fun y => ((mu + mu) * Real.log |y| + lam * (t + Real.log |y|)) / y)
      (((mu + mu) * (1 - Real.log |x|) + lam * (1 - (t + Real.log |x|))) / (x * x)) x := by
  have hl := logabs_deriv hx
  have h := ((hl.const_mul (mu + mu)).add ((hl.const_add t).const_mul lam)).div (hasDerivAt_id x) hx
  refine h.congr_deriv ?_
  simp only [id, pow_two, Pi.add_apply]; field_simp; ring

theorem stvk_dpsi_off (lam p t s : ℝ) {x : ℝ} (hx : x ≠ 0) :
    HasDerivAt (fun y => (p + lam * (t + Real.log |y|)) / s) (lam / (s * x)) x := by
  have hl := logabs_deriv hx
  refine ((((hl.const_add t).const_mul lam).const_add p).div_const s).congr_deriv ?_
  simp only [div_eq_mul_inv, mul_inv]; ring

/-- What the sums and products over the components are. -/
theorem prod_one (S : Mat.Store ℝ) : Mat.prod 1 S = S 0 := by simp [Mat.prod, forN, List.range_succ]
theorem prod_two (S : Mat.Store ℝ) : Mat.prod 2 S = S 0 * S 1 := by simp [Mat.prod, forN, List.range_succ]
theorem prod_three (S : Mat.Store ℝ) : Mat.prod 3 S = S 0 * S 1 * S 2 := by simp [Mat.prod, forN, List.range_succ]
theorem sum_one (S : Mat.Store ℝ) : Mat.sum 1 S = S 0 := by simp [Mat.sum, forN, List.range_succ]
theorem sum_two (S : Mat.Store ℝ) : Mat.sum 2 S = S 0 + S 1 := by simp [Mat.sum, forN, List.range_succ]
theorem sum_three (S : Mat.Store ℝ) : Mat.sum 3 S = S 0 + S 1 + S 2 := by simp [Mat.sum, forN, List.range_succ]
theorem nrm_one (S : Mat.Store ℝ) : Mat.l2NormSqr 1 S = S 0 * S 0 := by simp [Mat.l2NormSqr, forN, List.range_succ]
theorem nrm_two (S : Mat.Store ℝ) : Mat.l2NormSqr 2 S = S 0 * S 0 + S 1 * S 1 := by simp [Mat.l2NormSqr, forN, List.range_succ]
theorem nrm_three (S : Mat.Store ℝ) : Mat.l2NormSqr 3 S = S 0 * S 0 + S 1 * S 1 + S 2 * S 2 := by simp [Mat.l2NormSqr, forN, List.range_succ]

/-- The product of all components but one. -/
def rest (n : Nat) (S : Mat.Store ℝ) (i : Nat) : ℝ := Mat.prod n (upd S i 1)

theorem prod_upd {n i : Nat} (S : Mat.Store ℝ) (hn : n ≤ 3) (hi : i < n) (y : ℝ) : Mat.prod n (upd S i y) = rest n S i * y := by
  unfold rest
  interval_cases n <;> interval_cases i <;> simp [prod_one, prod_two, prod_three, upd] <;> ring

theorem rest_ne {n i : Nat} {S : Mat.Store ℝ} (hn : n ≤ 3) (hi : i < n) (h : ∀ k < n, S k ≠ 0) : rest n S i ≠ 0 := by
  unfold rest
  have h0 := h 0; have h1 := h 1; have h2 := h 2
  interval_cases n <;> interval_cases i <;> simp_all [prod_one, prod_two, prod_three, upd]

theorem upd_self (S : Mat.Store ℝ) (i : Nat) : upd S i (S i) = S := by
  funext k; unfold upd; split <;> simp_all

theorem prod_rest {n i : Nat} (S : Mat.Store ℝ) (hn : n ≤ 3) (hi : i < n) : Mat.prod n S = rest n S i * S i := by
  rw [← prod_upd S hn hi, upd_self]

theorem nrm_upd {n i : Nat} (S : Mat.Store ℝ) (hn : n ≤ 3) (hi : i < n) (y : ℝ) :
    Mat.l2NormSqr n (upd S i y) = Mat.l2NormSqr n (upd S i 0) + y * y := by
  interval_cases n <;> interval_cases i <;> simp [nrm_one, nrm_two, nrm_three, upd] <;> ring

theorem sum_upd {n i : Nat} (S : Mat.Store ℝ) (hn : n ≤ 3) (hi : i < n) (y : ℝ) :
    Mat.sum n (upd S i y) = Mat.sum n (upd S i 0) + y := by
  interval_cases n <;> interval_cases i <;> simp [sum_one, sum_two, sum_three, upd] <;> ring

theorem upd_map (f : ℝ → ℝ) (S : Mat.Store ℝ) (i : Nat) (y : ℝ) : (fun k => f (upd S i y k)) = upd (fun k => f (S k)) i (f y) := by
  funext k; unfold upd; split <;> rfl

theorem nh_d2 (mu lam : ℝ) {n i j : Nat} (S : Mat.Store ℝ) (hn : n ≤ 3) (hi : i < n) (hj : j < n) :
    (neoHookean mu lam).d2psi n S i j =
      if i = j then mu * (1 + 1 / (S j * S j)) - lam * (1 / (S j * S j)) * (Real.log (Mat.prod n S) - 1) else lam / (S i * S j) := by
  interval_cases n <;> interval_cases i <;> interval_cases j <;> simp [neoHookean, set2, Rot.set, mul_comm]

theorem stvk_d2 (eps mu lam : ℝ) {n i j : Nat} (S : Mat.Store ℝ) (hn : n ≤ 3) (hi : i < n) (hj : j < n) :
    (stvk eps mu lam).d2psi n S i j =
      if i = j then ((mu + mu) * (1 - Real.log |S j|) + lam * (1 - Mat.sum n (fun k => Real.log |S k|))) / (S j * S j)
      else lam / (S i * S j) := by
  interval_cases n <;> interval_cases i <;> interval_cases j <;> simp [stvk, set2, Rot.set, mul_comm]

end Verif.Elastic
