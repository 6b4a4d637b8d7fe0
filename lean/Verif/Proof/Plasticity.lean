import Verif.Spec.Plasticity
import Mathlib.Analysis.InnerProductSpace.PiL2
import Mathlib.Tactic.Linarith
import Mathlib.Tactic.FieldSimp
import Mathlib.Tactic.LinearCombination
import Mathlib.Analysis.MeanInequalities

/-! Helper lemmas for the plastic projections. -/
namespace Verif.Plastic

variable {n : ℕ}

theorem normSq_nonneg (v : Fin n → ℝ) : 0 ≤ normSq v := Finset.sum_nonneg fun i _ => mul_self_nonneg (v i)

theorem norm_nonneg (v : Fin n → ℝ) : 0 ≤ norm v := Real.sqrt_nonneg _

theorem norm_sq (v : Fin n → ℝ) : norm v ^ 2 = normSq v := Real.sq_sqrt (normSq_nonneg v)

theorem tr_add (v w : Fin n → ℝ) : tr (fun i => v i + w i) = tr v + tr w := Finset.sum_add_distrib

theorem tr_smul (a : ℝ) (v : Fin n → ℝ) : tr (fun i => a * v i) = a * tr v := by simp only [tr, Finset.mul_sum]

theorem tr_const (c : ℝ) : tr (fun _ : Fin n => c) = n * c := by simp [tr]

theorem tr_dev (hn : n ≠ 0) (v : Fin n → ℝ) : tr (dev v) = 0 := by
  have h : (n : ℝ) ≠ 0 := by exact_mod_cast hn
  simp only [tr, dev, Finset.sum_sub_distrib, Finset.sum_const, Finset.card_univ, Fintype.card_fin, nsmul_eq_mul]
  field_simp
  ring

theorem dev_affine (a c : ℝ) (hn : n ≠ 0) (v : Fin n → ℝ) : dev (fun i => a * v i + c) = fun i => a * dev v i := by
  have h : (n : ℝ) ≠ 0 := by exact_mod_cast hn
  funext i
  simp only [dev]
  rw [tr_add, tr_smul, tr_const]
  field_simp
  ring

theorem dev_smul (a : ℝ) (v : Fin n → ℝ) : dev (fun i => a * v i) = fun i => a * dev v i := by
  funext i
  simp only [dev]
  rw [tr_smul]
  ring

theorem norm_smul (a : ℝ) (v : Fin n → ℝ) : norm (fun i => a * v i) = |a| * norm v := by
  have : normSq (fun i => a * v i) = a ^ 2 * normSq v := by
    simp only [normSq, Finset.mul_sum]
    exact Finset.sum_congr rfl fun i _ => by ring
  rw [norm, this, Real.sqrt_mul (sq_nonneg a), Real.sqrt_sq_eq_abs, norm]

theorem norm_eq (v : Fin n → ℝ) : norm v = ‖(WithLp.toLp 2 v : EuclideanSpace ℝ (Fin n))‖ := by
  rw [EuclideanSpace.norm_eq, norm, normSq]
  congr 1
  exact Finset.sum_congr rfl fun i _ => by simp [Real.norm_eq_abs, sq_abs, sq]

theorem norm_triangle (v w : Fin n → ℝ) : norm v ≤ norm w + norm (fun i => v i - w i) := by
  rw [norm_eq, norm_eq, norm_eq]
  have e : (WithLp.toLp 2 (fun i => v i - w i) : EuclideanSpace ℝ (Fin n)) = WithLp.toLp 2 v - WithLp.toLp 2 w := rfl
  rw [e]
  have := norm_add_le (WithLp.toLp 2 w : EuclideanSpace ℝ (Fin n)) (WithLp.toLp 2 v - WithLp.toLp 2 w)
  simpa using this

theorem pythagoras (hn : n ≠ 0) (v : Fin n → ℝ) : ∑ i, v i ^ 2 = norm (dev v) ^ 2 + tr v ^ 2 / n := by
  have h : (n : ℝ) ≠ 0 := by exact_mod_cast hn
  rw [norm_sq]
  have e : ∀ i, dev v i * dev v i = v i ^ 2 - 2 * (tr v / n) * v i + tr v ^ 2 / n ^ 2 := fun i => by simp only [dev]; ring
  simp only [normSq, e, Finset.sum_add_distrib, Finset.sum_sub_distrib, Finset.sum_const, Finset.card_univ, Fintype.card_fin, nsmul_eq_mul, ← Finset.mul_sum]
  change _ = _ - 2 * (tr v / n) * tr v + _ + _
  field_simp
  ring

theorem dev_sub (v w : Fin n → ℝ) : dev (fun i => v i - w i) = fun i => dev v i - dev w i := by
  funext i
  simp only [dev, tr, Finset.sum_sub_distrib]
  ring

theorem tr_sub (v w : Fin n → ℝ) : tr (fun i => v i - w i) = tr v - tr w := Finset.sum_sub_distrib _ _

theorem tr_hencky (e : Elastic) (S : Fin n → ℝ) : tr (hencky e S) = (n * e.lam + 2 * e.mu) * tr fun i => Real.log (S i) := by
  have : hencky e S = fun i => 2 * e.mu * Real.log (S i) + e.lam * tr fun j => Real.log (S j) := rfl
  rw [this, tr_add, tr_smul, tr_const]
  ring

theorem dev_hencky (hn : n ≠ 0) (e : Elastic) (S : Fin n → ℝ) : dev (hencky e S) = fun i => 2 * e.mu * dev (fun i => Real.log (S i)) i :=
  dev_affine (2 * e.mu) (e.lam * tr fun j => Real.log (S j)) hn fun i => Real.log (S i)

theorem norm_dev_hencky (hn : n ≠ 0) {e : Elastic} (hm : 0 < e.mu) (S : Fin n → ℝ) :
    norm (dev (hencky e S)) = 2 * e.mu * norm (dev fun i => Real.log (S i)) := by
  rw [dev_hencky hn, norm_smul, abs_of_pos (by linarith)]

/-- The return along the deviator. -/
theorem return_spec (hn : n ≠ 0) (eps : Fin n → ℝ) (t : ℝ) :
    tr (fun i => eps i - (1 - t) * dev eps i) = tr eps ∧ dev (fun i => eps i - (1 - t) * dev eps i) = fun i => t * dev eps i := by
  have h1 : tr (fun i => eps i - (1 - t) * dev eps i) = tr eps := by
    rw [tr_sub, tr_smul, tr_dev hn]; ring
  refine ⟨h1, ?_⟩
  funext i
  rw [dev, h1]
  simp only [dev]
  ring

theorem radial_spec (hn : n ≠ 0) {ys : ℝ} {e : Elastic} (hm : 0 < e.mu) (hy : 0 ≤ ys) {S : Fin n → ℝ} (hS : ∀ i, 0 < S i) :
    ∃ t, 0 ≤ t ∧ t ≤ 1 ∧ (∀ i, 0 < radial ys e S i) ∧
      (∀ i, Real.log (radial ys e S i) = Real.log (S i) - (1 - t) * dev (fun i => Real.log (S i)) i) ∧
      t * norm (dev fun i => Real.log (S i)) = min (norm (dev fun i => Real.log (S i))) (ys / (2 * e.mu)) := by
  have hq : 0 ≤ ys / (2 * e.mu) := by positivity
  have h2 : e.mu + e.mu = 2 * e.mu := by ring
  unfold radial
  simp only [h2]
  set dn := norm (dev fun i => Real.log (S i)) with hdn
  have h0 : 0 ≤ dn := norm_nonneg _
  by_cases h : dn - ys / (2 * e.mu) > 0
  · rw [if_pos h]
    have hd : 0 < dn := by linarith
    refine ⟨ys / (2 * e.mu) / dn, by positivity, ?_, fun i => Real.exp_pos _, fun i => ?_, ?_⟩
    · rw [div_le_one hd]; linarith
    · rw [Real.log_exp]
      congr 2
      field_simp
    · rw [min_eq_right (by linarith)]
      field_simp
  · rw [if_neg h]
    exact ⟨1, zero_le_one, le_refl 1, hS, fun i => by ring, by rw [min_eq_left (by linarith), one_mul]⟩

/-- Volume cannot fall when the squares move towards their mean. -/
theorem prod_mix (hn : n ≠ 0) {b : Fin n → ℝ} (hb : ∀ i, 0 < b i) {t : ℝ} (h0 : 0 ≤ t) (h1 : t ≤ 1) :
    ∏ i, b i ≤ ∏ i, (t * b i + (1 - t) * (tr b / n)) := by
  have hnp : (0 : ℝ) < n := by exact_mod_cast Nat.pos_of_ne_zero hn
  have htr : 0 < tr b := by
    haveI : NeZero n := ⟨hn⟩
    exact Finset.sum_pos (fun i _ => hb i) ⟨0, Finset.mem_univ _⟩
  have hm : 0 < tr b / n := by positivity
  have am : ∏ i, b i ≤ (tr b / n) ^ n := by
    have g := Real.geom_mean_le_arith_mean_weighted Finset.univ (fun _ => (n : ℝ)⁻¹) b (fun _ _ => by positivity) (by simp [hnp.ne']) (fun i _ => (hb i).le)
    rw [← Finset.mul_sum] at g
    have e : (∏ i, b i ^ (n : ℝ)⁻¹) = (∏ i, b i) ^ (n : ℝ)⁻¹ := by
      rw [Real.finsetProd_rpow _ _ fun i _ => (hb i).le]
    rw [e] at g
    have hp : 0 ≤ ∏ i, b i := Finset.prod_nonneg fun i _ => (hb i).le
    have := pow_le_pow_left₀ (Real.rpow_nonneg hp _) g n
    rw [Real.rpow_inv_natCast_pow hp hn] at this
    have e2 : (n : ℝ)⁻¹ * ∑ i, b i = tr b / n := by rw [tr]; ring
    rwa [e2] at this
  have step : ∀ i, b i ^ t * (tr b / n) ^ (1 - t) ≤ t * b i + (1 - t) * (tr b / n) := fun i =>
    Real.geom_mean_le_arith_mean2_weighted h0 (by linarith) (hb i).le hm.le (by ring)
  have hp : 0 < ∏ i, b i := Finset.prod_pos fun i _ => hb i
  calc ∏ i, b i = (∏ i, b i) ^ t * (∏ i, b i) ^ (1 - t) := by
        rw [← Real.rpow_add hp]; simp
    _ ≤ (∏ i, b i) ^ t * ((tr b / n) ^ n) ^ (1 - t) :=
        mul_le_mul_of_nonneg_left (Real.rpow_le_rpow hp.le am (by linarith)) (Real.rpow_nonneg hp.le _)
    _ = ∏ i, (b i ^ t * (tr b / n) ^ (1 - t)) := by
        rw [Finset.prod_mul_distrib, Real.finsetProd_rpow _ _ fun i _ => (hb i).le]
        simp only [Finset.prod_const, Finset.card_univ, Fintype.card_fin]
        congr 1
        rw [← Real.rpow_natCast, ← Real.rpow_mul hm.le, ← Real.rpow_natCast, ← Real.rpow_mul hm.le, mul_comm]
    _ ≤ _ := Finset.prod_le_prod (fun i _ => mul_nonneg (Real.rpow_nonneg (hb i).le _) (Real.rpow_nonneg hm.le _)) fun i _ => step i

end Verif.Plastic
