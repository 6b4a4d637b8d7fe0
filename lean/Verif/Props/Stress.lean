import Verif.Model.Stress
import Verif.Spec.Stress
import Verif.Spec.MatrixUtils
import Verif.Props.Mpm
import Verif.Props.MatrixUtils
import Mathlib.Analysis.Complex.ExponentialBounds
import Mathlib.Tactic.LinearCombination
import Mathlib.Tactic.Linarith
import Mathlib.Tactic.Positivity

/-!
Stresses with plasticity.  `f = u diag(s) vᵀ` is the decomposition that the code computes first.
-/
namespace Verif.Stress

open Verif.Mpm Verif.MatrixUtils

/-! ### von Mises -/

/-- The stress is that of the corotated model for the projected singular values, a symmetric matrix. -/
theorem vm_stress (volume mu lambda yieldStress : ℝ) {u v f : V9} {s : V3} (hf : mat3 f = mat3 u * Matrix.diagonal s * (mat3 v).transpose) (hv : (mat3 v).transpose * mat3 v = 1) :
    mat3 (vmF mu lambda yieldStress u s v f) = mat3 u * Matrix.diagonal (vmS mu lambda yieldStress s) * (mat3 v).transpose ∧
      mat3 (vmPF volume mu lambda yieldStress u s v f) = volume • (mat3 u * Matrix.diagonal (tau mu lambda (vmS mu lambda yieldStress s)) * (mat3 u).transpose) := by
  have h1 : mat3 (vmF mu lambda yieldStress u s v f) = mat3 u * Matrix.diagonal (vmS mu lambda yieldStress s) * (mat3 v).transpose := by
    unfold vmF
    split
    · exact matDiagMatT3_eq u _ v
    · rename_i h; rw [hf, vmS, if_neg h]
  refine ⟨h1, ?_⟩
  have := (corotated_symmetric volume mu lambda (u := u) (v := v) (f := vmF mu lambda yieldStress u s v f) (s := vmS mu lambda yieldStress s) h1 hv).1
  refine this.trans ?_
  have e : (fun d => pHat mu lambda (vmS mu lambda yieldStress s) d * vmS mu lambda yieldStress s d) = tau mu lambda (vmS mu lambda yieldStress s) := by
    generalize vmS mu lambda yieldStress s = t
    funext d
    fin_cases d <;> simp [pHat, tau] <;> ring
  rw [e]; rfl

/-- After the projection the stress is on the yield surface, where the discriminants are not negative. -/
theorem vm_yield_partial {mu lambda yieldStress : ℝ} (hm : 0 < mu) (hy : 0 ≤ yieldStress) {s : V3} (h : Yields mu lambda yieldStress s)
    (hd : ∀ d, 0 ≤ discriminant mu lambda (tauNew yieldStress (tauTrial mu lambda s)) d) :
    ∑ d, dev (tau mu lambda (vmS mu lambda yieldStress s)) d ^ 2 = 2 / 3 * yieldStress ^ 2 ∧
      ∑ d, tau mu lambda (vmS mu lambda yieldStress s) d = ∑ d, tauTrial mu lambda s d +
        3 * (lambda * ((∏ d, vmS mu lambda yieldStress s d) - 1) * ∏ d, vmS mu lambda yieldStress s d) := by
  have hS : vmS mu lambda yieldStress s = root mu lambda (tauNew yieldStress (tauTrial mu lambda s)) := by rw [vmS, if_pos h]
  have hr : ∀ d, 2 * mu * (vmS mu lambda yieldStress s d - 1) * vmS mu lambda yieldStress s d = tauNew yieldStress (tauTrial mu lambda s) d := by
    intro d
    rw [hS]
    have hd := hd d
    have hq := Real.mul_self_sqrt hd
    simp only [root, if_neg (not_lt.2 hd)]
    generalize Real.sqrt (discriminant mu lambda (tauNew yieldStress (tauTrial mu lambda s)) d) = q at *
    simp only [discriminant] at hq
    field_simp
    linear_combination hq
  have hn : 0 < norm3 (sTrial (tauTrial mu lambda s)) := by
    have h' : norm3 (sTrial (tauTrial mu lambda s)) - tauY yieldStress > 0 := h
    have : 0 ≤ tauY yieldStress := mul_nonneg (Real.sqrt_nonneg _) hy
    linarith
  have hty : tauY yieldStress ^ 2 = 2 / 3 * yieldStress ^ 2 := by
    rw [tauY, mul_pow, Real.sq_sqrt (by norm_num)]; norm_num
  have hnn : norm3 (sTrial (tauTrial mu lambda s)) ^ 2 = ∑ d, sTrial (tauTrial mu lambda s) d ^ 2 := by
    rw [norm3, Real.sq_sqrt (add_nonneg (add_nonneg (mul_self_nonneg _) (mul_self_nonneg _)) (mul_self_nonneg _)), Fin.sum_univ_three]; ring
  have hsum : ∑ d, sTrial (tauTrial mu lambda s) d = 0 := by
    rw [Fin.sum_univ_three]; simp only [sTrial]; ring
  have htau : ∀ d, tau mu lambda (vmS mu lambda yieldStress s) d = tauY yieldStress / norm3 (sTrial (tauTrial mu lambda s)) * sTrial (tauTrial mu lambda s) d +
      ((∑ e, tauTrial mu lambda s e) / 3 + lambda * ((∏ d, vmS mu lambda yieldStress s d) - 1) * ∏ d, vmS mu lambda yieldStress s d) := by
    intro d
    have := hr d
    simp only [tauNew] at this
    rw [Fin.prod_univ_three, Fin.sum_univ_three, tau, this]; ring
  generalize lambda * ((∏ d, vmS mu lambda yieldStress s d) - 1) * ∏ d, vmS mu lambda yieldStress s d = q at *
  generalize norm3 (sTrial (tauTrial mu lambda s)) = n at *
  generalize sTrial (tauTrial mu lambda s) = t at *
  generalize tauY yieldStress = y at *
  rw [Fin.sum_univ_three] at hsum hnn
  have hsumtau : ∑ d, tau mu lambda (vmS mu lambda yieldStress s) d = ∑ d, tauTrial mu lambda s d + 3 * q := by
    rw [Fin.sum_univ_three]
    simp only [htau]
    linear_combination (y / n) * hsum
  refine ⟨?_, hsumtau⟩
  have hdev : ∀ d, dev (tau mu lambda (vmS mu lambda yieldStress s)) d = y / n * t d := by
    intro d
    rw [dev, hsumtau, htau]; ring
  rw [← hty, Fin.sum_univ_three]
  simp only [hdev]
  have : (y / n * t 0) ^ 2 + (y / n * t 1) ^ 2 + (y / n * t 2) ^ 2 = (y / n) ^ 2 * (t 0 ^ 2 + t 1 ^ 2 + t 2 ^ 2) := by ring
  rw [this, ← hnn, div_pow, div_mul_cancel₀ _ (by positivity)]

/-- Without projection the stress is within the yield surface, if the singular values are not clamped. -/
theorem vm_elastic {mu lambda yieldStress : ℝ} {s : V3} (h : ¬ Yields mu lambda yieldStress s) (hs : ∀ d, 1e-4 ≤ s d) :
    vmS mu lambda yieldStress s = s ∧ ∑ d, dev (tau mu lambda s) d ^ 2 ≤ 2 / 3 * yieldStress ^ 2 := by
  refine ⟨by rw [vmS, if_neg h], ?_⟩
  have hc : clamp s = s := funext fun d => if_neg (not_lt.2 (hs d))
  have ht : tauTrial mu lambda s = tau mu lambda s := by
    funext d; simp only [tauTrial, hc, tau]
  have h' : norm3 (sTrial (tauTrial mu lambda s)) ≤ tauY yieldStress := by
    have : ¬ norm3 (sTrial (tauTrial mu lambda s)) - tauY yieldStress > 0 := h
    linarith
  have hd : ∀ d, dev (tau mu lambda s) d = sTrial (tauTrial mu lambda s) d := by
    intro d; rw [dev, ht, sTrial, Fin.sum_univ_three]
  have hty : tauY yieldStress ^ 2 = 2 / 3 * yieldStress ^ 2 := by
    rw [tauY, mul_pow, Real.sq_sqrt (by norm_num)]; norm_num
  have hnn : norm3 (sTrial (tauTrial mu lambda s)) ^ 2 = ∑ d, sTrial (tauTrial mu lambda s) d ^ 2 := by
    rw [norm3, Real.sq_sqrt (add_nonneg (add_nonneg (mul_self_nonneg _) (mul_self_nonneg _)) (mul_self_nonneg _)), Fin.sum_univ_three]; ring
  simp only [hd]
  rw [← hnn, ← hty]
  exact pow_le_pow_left₀ (Real.sqrt_nonneg _) h' 2

/-- The projection takes the volume part of the stress to be zero: the mean stress is not kept.  For the singular values 2, 1, 1 and no yield stress it becomes almost twenty times as large. -/
theorem vm_mean_violated : Yields (1 / 2) (2 / 3) 0 ![2, 1, 1] ∧ vmS (1 / 2) (2 / 3) 0 ![2, 1, 1] = ![2, 2, 2] ∧
    ∑ d, tauTrial (1 / 2) (2 / 3) ![2, 1, 1] d = 6 ∧ ∑ d, tau (1 / 2) (2 / 3) (vmS (1 / 2) (2 / 3) 0 ![2, 1, 1]) d = 118 := by
  have hc : clamp ![2, 1, 1] = ![2, 1, 1] := by
    funext d; fin_cases d <;> norm_num [clamp]
  have ht : tauTrial (1 / 2) (2 / 3) ![2, 1, 1] = ![10 / 3, 4 / 3, 4 / 3] := by
    funext d; fin_cases d <;> simp [tauTrial, hc] <;> norm_num
  have hy : Yields (1 / 2) (2 / 3) 0 ![2, 1, 1] := by
    unfold Yields
    rw [ht, tauY, mul_zero, sub_zero]
    exact Real.sqrt_pos.2 (by simp [sTrial]; norm_num)
  have hn : tauNew 0 (tauTrial (1 / 2) (2 / 3) ![2, 1, 1]) = ![2, 2, 2] := by
    funext d; rw [ht]; fin_cases d <;> simp [tauNew, tauY] <;> norm_num
  have hq : Real.sqrt (9 / 4) = 3 / 2 := by
    rw [show (9 / 4 : ℝ) = (3 / 2) ^ 2 by norm_num]; exact Real.sqrt_sq (by norm_num)
  have hs : vmS (1 / 2) (2 / 3) 0 ![2, 1, 1] = ![2, 2, 2] := by
    rw [vmS, if_pos hy, hn]
    have hb : ∀ d, discriminant (1 / 2) (2 / 3) ![2, 2, 2] d = 9 / 4 := by
      intro d; fin_cases d <;> norm_num [discriminant]
    funext d
    simp only [root, hb]
    rw [if_neg (by norm_num), hq]
    fin_cases d <;> norm_num
  refine ⟨hy, hs, ?_, ?_⟩
  · rw [ht, Fin.sum_univ_three]; simp; norm_num
  · rw [hs, Fin.sum_univ_three]; simp [tau]; norm_num

/-- The hypotheses of the theorem on the yield surface are met. -/
example : ∃ s : V3, Yields (1 / 2) (2 / 3) 0 s ∧ ∀ d, 0 ≤ discriminant (1 / 2) (2 / 3) (tauNew 0 (tauTrial (1 / 2) (2 / 3) s)) d := by
  have hc : clamp ![2, 1, 1] = ![2, 1, 1] := by
    funext d; fin_cases d <;> norm_num [clamp]
  have ht : tauTrial (1 / 2) (2 / 3) ![2, 1, 1] = ![10 / 3, 4 / 3, 4 / 3] := by
    funext d; fin_cases d <;> simp [tauTrial, hc] <;> norm_num
  refine ⟨![2, 1, 1], vm_mean_violated.1, fun d => ?_⟩
  rw [ht]
  fin_cases d <;> simp [discriminant, tauNew, tauY] <;> norm_num

/-! ### Sand -/

/-- The stress is that of the logarithmic model for the new singular values, which are positive. -/
theorem sand_stress {volume mu lambda cohesion beta yieldSurface : ℝ} {vc : Bool} {logJp : ℝ} {u v : V9} {s : V3} (hv : (mat3 v).transpose * mat3 v = 1) {r : V9 × ℝ × V9}
    (h : sand volume mu lambda cohesion beta yieldSurface vc logJp u s v = some r) :
    ∃ s' : V3, sandS mu lambda cohesion beta yieldSurface vc logJp s = some (s', r.2.1) ∧ (∀ i, s' i ≠ 0) ∧ mat3 r.1 = mat3 u * Matrix.diagonal s' * (mat3 v).transpose ∧
      mat3 r.2.2 = volume • (mat3 u * Matrix.diagonal (fun i => 2 * mu * Real.log (s' i) + lambda * ∑ j, Real.log (s' j)) * (mat3 u).transpose) := by
  unfold sand at h
  rcases hs : sandS mu lambda cohesion beta yieldSurface vc logJp s with _ | ⟨s', l'⟩
  · simp [hs] at h
  rw [hs] at h
  rcases hp : sandPHat mu lambda s' with _ | p
  · simp [hp] at h
  simp only [hp, Option.bind_eq_bind, Option.bind_some, Option.some.injEq] at h
  subst h
  have h0 : ∀ i, s' i ≠ 0 := by
    unfold sandPHat at hp
    split at hp
    · cases hp
    · rename_i h0; push Not at h0
      intro i; fin_cases i
      · exact h0.1
      · exact h0.2.1
      · exact h0.2.2
  have hpp : ∀ i, p i * s' i = 2 * mu * Real.log (s' i) + lambda * ∑ j, Real.log (s' j) := by
    intro i
    unfold sandPHat at hp
    split at hp
    · cases hp
    · simp only [Option.some.injEq] at hp
      rw [← hp]
      simp only
      rw [div_mul_cancel₀ _ (h0 i), Fin.sum_univ_three]
  refine ⟨s', rfl, h0, matDiagMatT3_eq u s' v, ?_⟩
  have hc : ∀ p f, mat3 (pft volume p f) = volume • (mat3 p * (mat3 f).transpose) := by
    intro p f
    ext i j
    rw [Matrix.smul_apply, Matrix.mul_apply, Fin.sum_univ_three]
    simp only [Matrix.transpose_apply, smul_eq_mul]
    fin_cases i <;> fin_cases j <;> simp [mat3, pft] <;> ring
  rw [hc, matDiagMatT3_eq, matDiagMatT3_eq]
  congr 1
  simp only [Matrix.transpose_mul, Matrix.transpose_transpose, Matrix.diagonal_transpose]
  have e : mat3 u * Matrix.diagonal p * (mat3 v).transpose * (mat3 v * (Matrix.diagonal s' * (mat3 u).transpose)) =
      mat3 u * Matrix.diagonal p * ((mat3 v).transpose * mat3 v) * (Matrix.diagonal s' * (mat3 u).transpose) := by simp only [Matrix.mul_assoc]
  rw [e, hv, Matrix.mul_one]
  have : (fun i => 2 * mu * Real.log (s' i) + lambda * ∑ j, Real.log (s' j)) = fun i => p i * s' i := funext fun i => (hpp i).symm
  rw [this, ← Matrix.diagonal_mul_diagonal]
  simp only [Matrix.mul_assoc]

/-- The result is defined. -/
theorem sand_defined (volume : ℝ) {mu lambda : ℝ} (hm : 0 < mu) (hl : 0 ≤ 3 * lambda + 2 * mu) (cohesion beta : ℝ) {yieldSurface : ℝ} (hy : 0 ≤ yieldSurface) (vc : Bool) (logJp : ℝ)
    (u : V9) (s : V3) (v : V9) : (sand volume mu lambda cohesion beta yieldSurface vc logJp u s v).isSome := by
  have key : ∃ s' l', sandS mu lambda cohesion beta yieldSurface vc logJp s = some (s', l') ∧ ∀ i, 0 < s' i := by
    unfold sandS
    simp only
    rw [if_pos hm.ne']
    split_ifs with h0 h1
    · exact ⟨_, _, rfl, fun _ => Real.exp_pos _⟩
    · exact ⟨_, _, rfl, fun _ => Real.exp_pos _⟩
    · push Not at h0
      generalize epsilon cohesion s = e at *
      generalize e 0 + e 1 + e 2 + logJp = t at *
      unfold sandH
      simp only
      split_ifs with h2 h3
      · exact ⟨_, _, rfl, fun _ => Real.exp_pos _⟩
      · exfalso
        apply h2
        rw [deltaGamma, h3, zero_add]
        exact mul_nonpos_of_nonpos_of_nonneg (mul_nonpos_of_nonneg_of_nonpos (by positivity) h0.le) hy
      · exact ⟨_, _, rfl, fun _ => Real.exp_pos _⟩
  obtain ⟨s', l', hs, hp⟩ := key
  unfold sand
  rw [hs]
  have : sandPHat mu lambda s' ≠ none := by
    unfold sandPHat
    rw [if_neg (by push Not; exact ⟨(hp 0).ne', (hp 1).ne', (hp 2).ne'⟩)]
    simp
  rcases hq : sandPHat mu lambda s' with _ | p
  · exact absurd hq this
  · simp [hq]

/-- Without shear modulus a compressed state gets singular values zero, whose logarithm is taken and by which is divided. -/
theorem sand_mu_violated (volume lambda beta yieldSurface : ℝ) (vc : Bool) (u v : V9) : sand volume 0 lambda 0 beta yieldSurface vc (-1) u ![1, 1, 1] v = none := by
  have he : ∀ i, epsilon 0 ![1, 1, 1] i = 0 := by
    intro i
    have : (![1, 1, 1] : V3) i = 1 := by fin_cases i <;> rfl
    simp only [epsilon, this]
    norm_num
  have hs : sandS 0 lambda 0 beta yieldSurface vc (-1) ![1, 1, 1] = some (0, -1) := by
    unfold sandS
    simp only [he]
    norm_num
  unfold sand
  rw [hs]
  simp [sandPHat]

/-- Without a stored volume change, the new state is inside of the cone or on it, and its volume is that of the trial state or that of the tip. -/
theorem sand_yield_partial {mu lambda : ℝ} (hm : 0 < mu) (hl : 0 ≤ 3 * lambda + 2 * mu) {cohesion beta yieldSurface : ℝ} (hy : 0 ≤ yieldSurface) {vc : Bool} {s s' : V3} {l : ℝ}
    (h : sandS mu lambda cohesion beta yieldSurface vc 0 s = some (s', l)) :
    2 * mu * Real.sqrt (∑ i, dev (fun j => Real.log (s' j)) i ^ 2) + (3 * lambda + 2 * mu) * (∑ i, (Real.log (s' i) - cohesion)) * yieldSurface ≤ 0 ∧
      ∑ i, (Real.log (s' i) - cohesion) = min (∑ i, epsilon cohesion s i) 0 := by
  unfold sandS at h
  simp only [add_zero, if_true, ne_eq, hm.ne', not_false_eq_true] at h
  split_ifs at h with h0 h1
  · simp only [Option.some.injEq, Prod.mk.injEq] at h
    have hz : ∑ i, epsilon cohesion s i = epsilon cohesion s 0 + epsilon cohesion s 1 + epsilon cohesion s 2 := Fin.sum_univ_three _
    rw [← h.1, hz, min_eq_right h0]
    simp [dev]
  · simp only [Option.some.injEq, Prod.mk.injEq] at h
    have hz : ∑ i, epsilon cohesion s i = epsilon cohesion s 0 + epsilon cohesion s 1 + epsilon cohesion s 2 := Fin.sum_univ_three _
    rw [← h.1, hz, min_eq_right h0]
    simp [dev]
  all_goals
    push Not at h0
    have hz : ∑ i, epsilon cohesion s i = epsilon cohesion s 0 + epsilon cohesion s 1 + epsilon cohesion s 2 := Fin.sum_univ_three _
    rw [hz, min_eq_left h0.le]
    generalize epsilon cohesion s = e at *
    rcases hh : sandH mu lambda cohesion yieldSurface e (e 0 + e 1 + e 2) with _ | x
    · simp [hh] at h
    simp only [hh, Option.map_some, Option.some.injEq, Prod.mk.injEq] at h
    rw [← h.1]
    simp only [Real.log_exp]
    unfold sandH at hh
    simp only at hh
    have hnn : norm3 (epsilonHat (e 0 + e 1 + e 2) e) = Real.sqrt (∑ i, epsilonHat (e 0 + e 1 + e 2) e i ^ 2) := by
      rw [norm3, Fin.sum_univ_three]; congr 1; ring
    split_ifs at hh with h2 h3
    · simp only [Option.some.injEq] at hh
      subst hh
      have hd : ∀ i, dev (fun j => e j + cohesion) i = epsilonHat (e 0 + e 1 + e 2) e i := by
        intro i; rw [dev, Fin.sum_univ_three, epsilonHat]; ring
      simp only [hd, add_sub_cancel_right]
      rw [← hnn, Fin.sum_univ_three]
      refine ⟨?_, rfl⟩
      rw [deltaGamma] at h2
      have : 2 * mu * (norm3 (epsilonHat (e 0 + e 1 + e 2) e) + (3 * lambda + 2 * mu) / (2 * mu) * (e 0 + e 1 + e 2) * yieldSurface) ≤ 0 :=
        mul_nonpos_of_nonneg_of_nonpos (by positivity) h2
      have e2 : 2 * mu * ((3 * lambda + 2 * mu) / (2 * mu) * (e 0 + e 1 + e 2) * yieldSurface) = (3 * lambda + 2 * mu) * (e 0 + e 1 + e 2) * yieldSurface := by field_simp
      linarith
    · simp only [Option.some.injEq] at hh
      subst hh
      set n := norm3 (epsilonHat (e 0 + e 1 + e 2) e) with hn
      set g := deltaGamma mu lambda yieldSurface (e 0 + e 1 + e 2) n with hg
      have hd : ∀ i, dev (fun j => e j - g / n * epsilonHat (e 0 + e 1 + e 2) e j + cohesion) i = (1 - g / n) * epsilonHat (e 0 + e 1 + e 2) e i := by
        intro i; rw [dev, Fin.sum_univ_three]; simp only [epsilonHat]; ring
      have hsum : ∑ i, (e i - g / n * epsilonHat (e 0 + e 1 + e 2) e i + cohesion - cohesion) = e 0 + e 1 + e 2 := by
        rw [Fin.sum_univ_three]; simp only [epsilonHat]; ring
      rw [hsum]
      refine ⟨?_, rfl⟩
      simp only [hd, mul_pow]
      have hn0 : 0 < n := lt_of_le_of_ne (Real.sqrt_nonneg _) (Ne.symm h3)
      rw [← Finset.mul_sum, Real.sqrt_mul (sq_nonneg _), ← hnn, Real.sqrt_sq_eq_abs]
      have hA : (1 - g / n) * n = -((3 * lambda + 2 * mu) / (2 * mu) * (e 0 + e 1 + e 2) * yieldSurface) := by
        rw [sub_mul, div_mul_cancel₀ _ hn0.ne', hg, deltaGamma]; ring
      have hp : 0 ≤ (1 - g / n) * n := by
        rw [hA, neg_nonneg]
        exact mul_nonpos_of_nonpos_of_nonneg (mul_nonpos_of_nonneg_of_nonpos (by positivity) h0.le) hy
      rw [abs_of_nonneg (nonneg_of_mul_nonneg_left hp hn0), hA]
      have e2 : 2 * mu * ((3 * lambda + 2 * mu) / (2 * mu) * (e 0 + e 1 + e 2) * yieldSurface) = (3 * lambda + 2 * mu) * (e 0 + e 1 + e 2) * yieldSurface := by field_simp
      linarith

/-- A state beyond the tip goes to the tip.  With the correction, the given part of the logarithmic volume that this removes is stored; without it nothing is. -/
theorem sand_tip (mu lambda cohesion beta yieldSurface : ℝ) (vc : Bool) {logJp : ℝ} {s : V3} (hs : ∀ i, 1e-4 < s i) (ht : 0 ≤ (∑ i, (Real.log (s i) - cohesion)) + logJp) :
    ∃ s' l', sandS mu lambda cohesion beta yieldSurface vc logJp s = some (s', l') ∧ (∀ i, Real.log (s' i) = cohesion) ∧
      l' - logJp = (if vc then beta else 0) * (Real.log (∏ i, s i) - Real.log (∏ i, s' i)) := by
  have hpos : ∀ i, 0 < s i := fun i => lt_trans (by norm_num) (hs i)
  have he : ∀ i, epsilon cohesion s i = Real.log (s i) - cohesion := by
    intro i
    simp only [epsilon, gt_iff_lt, if_pos (hpos i), if_pos (hs i)]
  rw [Fin.sum_univ_three] at ht
  refine ⟨fun _ => Real.exp cohesion, if vc then beta * (Real.log (s 0) - cohesion + (Real.log (s 1) - cohesion) + (Real.log (s 2) - cohesion)) + logJp else logJp, ?_,
    fun i => Real.log_exp cohesion, ?_⟩
  · rw [sandS]
    simp only [he]
    rw [if_pos ht]
  · rw [Real.log_prod (fun i _ => (hpos i).ne'), Real.log_prod (fun i _ => (Real.exp_pos _).ne'), Fin.sum_univ_three, Fin.sum_univ_three, Real.log_exp]
    cases vc
    · simp
    · simp only [if_true]; ring

/-- Without a stored volume change, a compressed state inside of the cone is kept. -/
theorem sand_elastic_partial {mu lambda : ℝ} (hm : 0 < mu) {cohesion : ℝ} (beta : ℝ) {yieldSurface : ℝ} (vc : Bool) {s : V3} (hs : ∀ i, 1e-4 < s i) (ht : ∑ i, (Real.log (s i) - cohesion) < 0)
    (h : 2 * mu * Real.sqrt (∑ i, dev (fun j => Real.log (s j)) i ^ 2) + (3 * lambda + 2 * mu) * (∑ i, (Real.log (s i) - cohesion)) * yieldSurface ≤ 0) :
    sandS mu lambda cohesion beta yieldSurface vc 0 s = some (s, 0) := by
  have hpos : ∀ i, 0 < s i := fun i => lt_trans (by norm_num) (hs i)
  have he : ∀ i, epsilon cohesion s i = Real.log (s i) - cohesion := by
    intro i
    simp only [epsilon, gt_iff_lt, if_pos (hpos i), if_pos (hs i)]
  unfold sandS
  simp only [add_zero, if_pos hm.ne']
  rw [Fin.sum_univ_three] at ht
  rw [if_neg (by rw [he, he, he]; linarith)]
  have hH : sandH mu lambda cohesion yieldSurface (epsilon cohesion s) (epsilon cohesion s 0 + epsilon cohesion s 1 + epsilon cohesion s 2) = some fun i => epsilon cohesion s i + cohesion := by
    unfold sandH
    simp only
    rw [if_pos]
    have hn : norm3 (epsilonHat (epsilon cohesion s 0 + epsilon cohesion s 1 + epsilon cohesion s 2) (epsilon cohesion s)) = Real.sqrt (∑ i, dev (fun j => Real.log (s j)) i ^ 2) := by
      rw [norm3, Fin.sum_univ_three]
      congr 1
      simp only [dev, epsilonHat, he, Fin.sum_univ_three]
      ring
    rw [hn, deltaGamma, he, he, he]
    rw [Fin.sum_univ_three fun i => Real.log (s i) - cohesion] at h
    have e2 : 2 * mu * ((3 * lambda + 2 * mu) / (2 * mu) * (Real.log (s 0) - cohesion + (Real.log (s 1) - cohesion) + (Real.log (s 2) - cohesion)) * yieldSurface) =
        (3 * lambda + 2 * mu) * (Real.log (s 0) - cohesion + (Real.log (s 1) - cohesion) + (Real.log (s 2) - cohesion)) * yieldSurface := by field_simp
    refine nonpos_of_mul_nonpos_right (a := 2 * mu) ?_ (by positivity)
    rw [mul_add, e2]
    exact h
  rw [hH, Option.map_some]
  congr 2
  funext i
  simp only
  rw [he, sub_add_cancel, Real.exp_log (hpos i)]

/-- With one, even a state under pure pressure, which is inside of every cone, is changed: the part that is subtracted has the stored volume change as its trace. -/
theorem sand_elastic_violated : ∃ s' : V3, sandS 1 0 0 0 (1 / 10) true 1 (fun _ => Real.exp (-1)) = some (s', 0) ∧ ∀ i, Real.exp (-1) < s' i := by
  have h4 : (1e-4 : ℝ) < Real.exp (-1) := by
    rw [Real.exp_neg]
    have h3 := Real.exp_one_lt_three
    rw [lt_inv_comm₀ (by norm_num) (Real.exp_pos 1)]
    norm_num
    linarith
  have he : ∀ i, epsilon 0 (fun _ => Real.exp (-1)) i = -1 := by
    intro i
    simp only [epsilon, gt_iff_lt, if_pos (Real.exp_pos _), if_pos h4, Real.log_exp, sub_zero]
  have hx : epsilonHat (-2) (epsilon 0 (fun _ => Real.exp (-1))) = fun _ => -1 / 3 := by
    funext i; rw [epsilonHat, he]; norm_num
  have hn : norm3 (fun _ => -1 / 3) = Real.sqrt (1 / 3) := by rw [norm3]; norm_num
  have hq : (1 / 5 : ℝ) < Real.sqrt (1 / 3) := Real.lt_sqrt_of_sq_lt (by norm_num)
  have hg : deltaGamma 1 0 (1 / 10) (-2) (Real.sqrt (1 / 3)) = Real.sqrt (1 / 3) - 1 / 5 := by rw [deltaGamma]; ring
  unfold sandS
  simp only [he]
  rw [if_neg (by norm_num), if_pos one_ne_zero, show (-1 : ℝ) + -1 + -1 + 1 = -2 by norm_num]
  unfold sandH
  simp only [hx, hn, hg]
  rw [if_neg (by linarith), if_neg (by linarith), Option.map_some]
  refine ⟨_, rfl, fun i => Real.exp_lt_exp.2 ?_⟩
  simp only
  rw [he]
  have : 0 < (Real.sqrt (1 / 3) - 1 / 5) / Real.sqrt (1 / 3) := div_pos (by linarith) (by linarith)
  linarith

/-! ### Cam-Clay -/

/-- The stress is that of the model with the new singular values. -/
theorem nacc_stress (m : Nacc) (volume logJp : ℝ) {u v f : V9} {s : V3} (hf : mat3 f = mat3 u * Matrix.diagonal s * (mat3 v).transpose) (hv : (mat3 v).transpose * mat3 v = 1) :
    mat3 (m.newF logJp u s v f) = mat3 u * Matrix.diagonal (m.newS logJp s) * (mat3 v).transpose ∧
      ∀ b, b = mat3 u * Matrix.diagonal (fun i => m.newS logJp s i ^ 2) * (mat3 u).transpose →
        mat3 (m.pf volume logJp u s v f) = volume • ((m.mu * (∏ i, m.newS logJp s i) ^ (-2 / 3 : ℝ)) • (b - (b.trace / 3) • 1) + (m.bm / 2 * ((∏ i, m.newS logJp s i) ^ 2 - 1)) • 1) := by
  have h1 : mat3 (m.newF logJp u s v f) = mat3 u * Matrix.diagonal (m.newS logJp s) * (mat3 v).transpose := by
    unfold Nacc.newF
    split_ifs with h
    · exact matDiagMatT3_eq u _ v
    · push Not at h
      rw [hf, Nacc.newS, if_neg (not_lt.2 h.1), if_neg (not_lt.2 h.2.1), if_neg (not_le.2 h.2.2)]
  refine ⟨h1, ?_⟩
  intro b hb
  have hB : mat3 (mulSelfTranspose3 (m.newF logJp u s v f)) = b := by
    rw [mulSelfTranspose3_eq, h1, hb]
    simp only [Matrix.transpose_mul, Matrix.transpose_transpose, Matrix.diagonal_transpose]
    generalize m.newS logJp s = t
    have e : mat3 u * Matrix.diagonal t * (mat3 v).transpose * (mat3 v * (Matrix.diagonal t * (mat3 u).transpose)) =
        mat3 u * Matrix.diagonal t * ((mat3 v).transpose * mat3 v) * (Matrix.diagonal t * (mat3 u).transpose) := by simp only [Matrix.mul_assoc]
    rw [e, hv, Matrix.mul_one]
    have : (fun i => t i ^ 2) = fun i => t i * t i := funext fun i => sq _
    rw [this, ← Matrix.diagonal_mul_diagonal]
    simp only [Matrix.mul_assoc]
  have hD := (deviatoric_eq (by norm_num) (mulSelfTranspose3 (m.newF logJp u s v f))).1
  rw [hB] at hD
  rw [← hD, Fin.prod_univ_three]
  ext i j
  simp only [Matrix.smul_apply, Matrix.add_apply, smul_eq_mul]
  fin_cases i <;> fin_cases j <;> simp [mat3, Nacc.pf] <;> ring

/-- Within the yield surface the stress is the one that the surface was tested with: the trial deviatoric part less the trial pressure, along the columns of `U`. -/
theorem nacc_elastic (m : Nacc) (volume logJp : ℝ) {u v f : V9} {s : V3} (hf : mat3 f = mat3 u * Matrix.diagonal s * (mat3 v).transpose) (hv : (mat3 v).transpose * mat3 v = 1)
    (hu : mat3 u * (mat3 u).transpose = 1) (hj : s 0 * s 1 * s 2 ≠ 0) (h1 : m.pTrial s ≤ m.p0 logJp) (h2 : m.pMin logJp ≤ m.pTrial s) (hy : m.y logJp s < 1e-4) :
    mat3 (m.pf volume logJp u s v f) = volume • (mat3 u * Matrix.diagonal (fun i => m.sHat s i - m.pTrial s) * (mat3 u).transpose) := by
  have hS : m.newS logJp s = s := by
    rw [Nacc.newS, if_neg (not_lt.2 h1), if_neg (not_lt.2 h2), if_neg (not_le.2 hy)]
  have h := (nacc_stress m volume logJp hf hv).2 _ rfl
  rw [hS, Fin.prod_univ_three] at h
  rw [h]
  have htr : (mat3 u * Matrix.diagonal (fun i => s i ^ 2) * (mat3 u).transpose).trace = s 0 ^ 2 + s 1 ^ 2 + s 2 ^ 2 := by
    rw [Matrix.trace_mul_comm, ← Matrix.mul_assoc, mul_eq_one_comm.1 hu, Matrix.one_mul, Matrix.trace_diagonal, Fin.sum_univ_three]
  rw [htr]
  congr 1
  have hd : Matrix.diagonal (fun i => m.sHat s i - m.pTrial s) =
      (m.mu * (s 0 * s 1 * s 2) ^ (-2 / 3 : ℝ)) • (Matrix.diagonal (fun i => s i ^ 2) - ((s 0 ^ 2 + s 1 ^ 2 + s 2 ^ 2) / 3) • (1 : Matrix (Fin 3) (Fin 3) ℝ)) +
        (m.bm / 2 * ((s 0 * s 1 * s 2) ^ 2 - 1)) • (1 : Matrix (Fin 3) (Fin 3) ℝ) := by
    have : (s 0 * s 1 * s 2 - 1 / (s 0 * s 1 * s 2)) * (s 0 * s 1 * s 2) = (s 0 * s 1 * s 2) ^ 2 - 1 := by
      rw [sub_mul, one_div, inv_mul_cancel₀ hj]; ring
    ext i k
    simp only [Matrix.add_apply, Matrix.smul_apply, Matrix.sub_apply, smul_eq_mul, Matrix.diagonal_apply, Matrix.one_apply]
    by_cases hik : i = k
    · subst hik
      simp only [if_true, Nacc.sHat, Nacc.pTrial, meanB]
      linear_combination (m.bm / 2) * this
    · simp [hik]
  rw [hd]
  simp only [Matrix.mul_add, Matrix.add_mul, Matrix.mul_smul, Matrix.smul_mul, Matrix.mul_sub, Matrix.sub_mul, Matrix.mul_one, hu]

/-- The end points of the yield surface: beyond them the stress becomes a pressure of that size. -/
theorem nacc_tip (m : Nacc) (hb : 0 < m.bm) (volume logJp : ℝ) {u v f : V9} {s : V3} (hf : mat3 f = mat3 u * Matrix.diagonal s * (mat3 v).transpose) (hv : (mat3 v).transpose * mat3 v = 1)
    (hu : mat3 u * (mat3 u).transpose = 1) :
    (m.pTrial s > m.p0 logJp → 2 * m.p0 logJp ≤ m.bm → mat3 (m.pf volume logJp u s v f) = -(m.p0 logJp * volume) • (1 : Matrix (Fin 3) (Fin 3) ℝ)) ∧
      (m.pTrial s ≤ m.p0 logJp → m.pTrial s < m.pMin logJp → 2 * m.pMin logJp ≤ m.bm → mat3 (m.pf volume logJp u s v f) = -(m.pMin logJp * volume) • (1 : Matrix (Fin 3) (Fin 3) ℝ)) := by
  have key : ∀ p, 2 * p ≤ m.bm → (m.newS logJp s = fun _ => Real.sqrt (-2 * p / m.bm + 1) ^ (1 / 3 : ℝ)) → mat3 (m.pf volume logJp u s v f) = -(p * volume) • (1 : Matrix (Fin 3) (Fin 3) ℝ) := by
    intro p hp hS
    have hx : 0 ≤ -2 * p / m.bm + 1 := by
      have : -2 * p / m.bm + 1 = (m.bm - 2 * p) / m.bm := by field_simp; ring
      rw [this]; exact div_nonneg (by linarith) hb.le
    have hJ : (∏ i, m.newS logJp s i) = Real.sqrt (-2 * p / m.bm + 1) := by
      rw [hS]
      simp only [Finset.prod_const, Finset.card_univ, Fintype.card_fin]
      rw [← Real.rpow_natCast, ← Real.rpow_mul (Real.sqrt_nonneg _)]
      norm_num
    have h := (nacc_stress m volume logJp hf hv).2 _ rfl
    rw [h, hJ, Real.sq_sqrt hx]
    have hdiag : mat3 u * Matrix.diagonal (fun i => m.newS logJp s i ^ 2) * (mat3 u).transpose = ((Real.sqrt (-2 * p / m.bm + 1) ^ (1 / 3 : ℝ)) ^ 2) • (1 : Matrix (Fin 3) (Fin 3) ℝ) := by
      rw [hS]
      simp only
      rw [← Matrix.smul_one_eq_diagonal, Matrix.mul_smul, Matrix.mul_one, Matrix.smul_mul, hu]
    rw [hdiag, Matrix.trace_smul, Matrix.trace_one, Fintype.card_fin]
    have e : m.bm / 2 * (-2 * p / m.bm + 1 - 1) = -p := by field_simp; ring
    rw [e]
    ext i j
    simp only [Matrix.smul_apply, Matrix.add_apply, Matrix.sub_apply, smul_eq_mul]
    ring
  constructor
  · intro h hp
    exact key _ hp (by rw [Nacc.newS, if_pos h])
  · intro h0 h hp
    exact key _ hp (by rw [Nacc.newS, if_neg (not_lt.2 h0), if_pos h])

/-- Between them, a state outside of the yield surface is projected to it: the mean of the squares is kept, and the deviatoric stress that is computed with the trial volume is on the surface.
The stress is computed with the new volume instead, which is why this is partial. -/
theorem nacc_surface_partial (m : Nacc) (hmu : 0 < m.mu) (hbeta : 0 ≤ m.beta) (hmsqr : 0 ≤ m.msqr) {logJp : ℝ} {s : V3} (hj : 0 < s 0 * s 1 * s 2) (h1 : m.pTrial s ≤ m.p0 logJp)
    (h2 : m.pMin logJp ≤ m.pTrial s) (hy : 1e-4 ≤ m.y logJp s) (hn : ∀ i, 0 ≤ m.sHat s i * m.bs logJp s + meanB s) :
    meanB (m.newS logJp s) = meanB s ∧
      m.ysCoeff * sqrNorm (fun i => m.mu * (s 0 * s 1 * s 2) ^ (-2 / 3 : ℝ) * (m.newS logJp s i * m.newS logJp s i - meanB (m.newS logJp s))) + m.yp logJp s = 0 := by
  have hS : ∀ i, m.newS logJp s i * m.newS logJp s i = m.sHat s i * m.bs logJp s + meanB s := by
    intro i
    rw [Nacc.newS, if_neg (not_lt.2 h1), if_neg (not_lt.2 h2), if_pos hy]
    exact Real.mul_self_sqrt (hn i)
  have h0 : m.sHat s 0 + m.sHat s 1 + m.sHat s 2 = 0 := by
    simp only [Nacc.sHat, meanB]; ring
  have hmean : meanB (m.newS logJp s) = meanB s := by
    conv_lhs => rw [meanB, hS, hS, hS]
    linear_combination (m.bs logJp s / 3) * h0
  refine ⟨hmean, ?_⟩
  rw [hmean]
  have hc : 0 < m.ysCoeff := by rw [Nacc.ysCoeff]; positivity
  have hyp : m.yp logJp s ≤ 0 := by
    rw [Nacc.yp]
    exact mul_nonpos_of_nonneg_of_nonpos (mul_nonneg hmsqr (by linarith)) (by linarith)
  have hsq : 0 < sqrNorm (m.sHat s) := by
    rw [Nacc.y] at hy
    by_contra hneg
    push Not at hneg
    have := mul_nonpos_of_nonneg_of_nonpos hc.le hneg
    norm_num at hy
    linarith
  have hpow : (s 0 * s 1 * s 2) ^ (-2 / 3 : ℝ) * (s 0 * s 1 * s 2) ^ (2 / 3 : ℝ) = 1 := by
    rw [← Real.rpow_add hj]; norm_num
  have e : ∀ i, m.mu * (s 0 * s 1 * s 2) ^ (-2 / 3 : ℝ) * (m.newS logJp s i * m.newS logJp s i - meanB s) =
      Real.sqrt (-m.yp logJp s / m.ysCoeff) / Real.sqrt (sqrNorm (m.sHat s)) * m.sHat s i := by
    intro i
    rw [hS, Nacc.bs]
    generalize m.sHat s i = x
    generalize Real.sqrt (-m.yp logJp s / m.ysCoeff) = q
    generalize Real.sqrt (sqrNorm (m.sHat s)) = r
    generalize (s 0 * s 1 * s 2) ^ (-2 / 3 : ℝ) = a at *
    generalize (s 0 * s 1 * s 2) ^ (2 / 3 : ℝ) = b at *
    have : m.mu * a * (x * (b / m.mu * q / r) + meanB s - meanB s) = a * b * (m.mu / m.mu) * (q / r * x) := by ring
    rw [this, hpow, div_self hmu.ne']; ring
  simp only [e]
  have e2 : ∀ (c : ℝ) (x : V3), sqrNorm (fun i => c * x i) = c ^ 2 * sqrNorm x := by
    intro c x; simp only [sqrNorm]; ring
  rw [e2, div_pow, Real.sq_sqrt (div_nonneg (by linarith) hc.le), Real.sq_sqrt hsq.le, div_mul_cancel₀ _ hsq.ne']
  field_simp
  ring

/-- The hypotheses are met by a state of unit volume. -/
example : ∃ (m : Nacc) (s : V3), 0 < m.mu ∧ 0 ≤ m.beta ∧ 0 < m.msqr ∧ 0 < s 0 * s 1 * s 2 ∧ m.pTrial s ≤ m.p0 0 ∧ m.pMin 0 ≤ m.pTrial s ∧ 1e-4 ≤ m.y 0 s ∧
    ∀ i, 0 ≤ m.sHat s i * m.bs 0 s + meanB s := by
  have hp : Nacc.p0 ⟨1, 1, 1, 1, 1⟩ 0 = 1 / 100000 := by norm_num [Nacc.p0]
  have hq : Nacc.pMin ⟨1, 1, 1, 1, 1⟩ 0 = -(1 / 100000) := by rw [Nacc.pMin, hp]; norm_num
  have hj : (![2, 1, 1 / 2] : V3) 0 * (![2, 1, 1 / 2] : V3) 1 * (![2, 1, 1 / 2] : V3) 2 = 1 := by simp
  have ht : Nacc.pTrial ⟨1, 1, 1, 1, 1⟩ ![2, 1, 1 / 2] = 0 := by
    simp only [Nacc.pTrial, hj]; norm_num
  have hmean : meanB ![2, 1, 1 / 2] = 7 / 4 := by simp [meanB]; norm_num
  have hs : Nacc.sHat ⟨1, 1, 1, 1, 1⟩ ![2, 1, 1 / 2] = ![9 / 4, -3 / 4, -3 / 2] := by
    funext i
    simp only [Nacc.sHat, hj, hmean, Real.one_rpow]
    fin_cases i <;> norm_num
  have hn : sqrNorm ![9 / 4, -3 / 4, -3 / 2] = 63 / 8 := by simp [sqrNorm]; norm_num
  have hyp : Nacc.yp ⟨1, 1, 1, 1, 1⟩ 0 ![2, 1, 1 / 2] = -(1 / 10000000000) := by
    rw [Nacc.yp, hp, hq, ht]; norm_num
  have hc : Nacc.ysCoeff ⟨1, 1, 1, 1, 1⟩ = 9 / 2 := by norm_num [Nacc.ysCoeff]
  have hb0 : 0 ≤ Nacc.bs ⟨1, 1, 1, 1, 1⟩ 0 ![2, 1, 1 / 2] := by
    rw [Nacc.bs, hj, Real.one_rpow]; positivity
  have hb1 : Nacc.bs ⟨1, 1, 1, 1, 1⟩ 0 ![2, 1, 1 / 2] ≤ 1 := by
    rw [Nacc.bs, hj, Real.one_rpow, hs, hn, hyp, hc]
    simp only [div_one, one_mul]
    exact div_le_one_of_le₀ (Real.sqrt_le_sqrt (by norm_num)) (Real.sqrt_nonneg _)
  refine ⟨⟨1, 1, 1, 1, 1⟩, ![2, 1, 1 / 2], by norm_num, by norm_num, by norm_num, by rw [hj]; norm_num, by rw [ht, hp]; norm_num, by rw [ht, hq]; norm_num, ?_, ?_⟩
  · rw [Nacc.y, hs, hn, hyp, hc]; norm_num
  · intro i
    rw [hs, hmean]
    fin_cases i <;> simp <;> linarith

/-- The hardening takes a sine where the model has the hyperbolic sine: the pressure at which the material yields becomes negative under compaction, and the elastic range is empty. -/
theorem nacc_p0_violated : ∃ (m : Nacc) (logJp : ℝ), 0 < m.mu ∧ 0 < m.bm ∧ 0 < m.xi ∧ 0 < m.beta ∧ logJp < 0 ∧ m.p0 logJp < 0 ∧ m.p0 logJp < m.pMin logJp := by
  have h : Nacc.p0 ⟨1, 1, 3 * Real.pi / 2, 1, 1⟩ (-1) < 0 := by
    simp only [Nacc.p0]
    rw [if_pos (by norm_num)]
    have : Real.sin (3 * Real.pi / 2 * -(-1)) = -1 := by
      rw [show 3 * Real.pi / 2 * -(-1) = Real.pi / 2 + Real.pi by ring, Real.sin_add_pi, Real.sin_pi_div_two]
    rw [this]; norm_num
  refine ⟨⟨1, 1, 3 * Real.pi / 2, 1, 1⟩, -1, by norm_num, by norm_num, by have := Real.pi_pos; positivity, by norm_num, by norm_num, h, ?_⟩
  rw [Nacc.pMin]
  simp only
  linarith

end Verif.Stress
