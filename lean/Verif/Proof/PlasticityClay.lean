import Verif.Proof.Plasticity
import Mathlib.Analysis.SpecialFunctions.Trigonometric.DerivHyp

/-! Helper lemmas for the projections that work on the squares of the singular values. -/
namespace Verif.Plastic

variable {n : ℕ}

theorem dev_mix (v : Fin n → ℝ) (t : ℝ) (i : Fin n) : v i - (1 - t) * dev v i = t * v i + (1 - t) * (tr v / n) := by
  simp only [dev]; ring

theorem mix_pos (hn : n ≠ 0) {b : Fin n → ℝ} (hb : ∀ i, 0 < b i) {t : ℝ} (h0 : 0 ≤ t) (h1 : t ≤ 1) (i : Fin n) :
    0 < t * b i + (1 - t) * (tr b / n) := by
  have hnp : (0 : ℝ) < n := by exact_mod_cast Nat.pos_of_ne_zero hn
  have htr : 0 < tr b := Finset.sum_pos (fun i _ => hb i) ⟨i, Finset.mem_univ _⟩
  have hm : 0 < tr b / n := by positivity
  rcases eq_or_lt_of_le h0 with h | h
  · rw [← h]; simpa using hm
  · have := mul_pos h (hb i)
    have := mul_nonneg (sub_nonneg.2 h1) hm.le
    linarith

theorem sqrt_prod_ge {a b : Fin n → ℝ} (ha : ∀ i, 0 < a i) (hb : ∀ i, 0 < b i) (h : ∏ i, a i ^ 2 ≤ ∏ i, b i ^ 2) : ∏ i, a i ≤ ∏ i, b i := by
  rw [Finset.prod_pow, Finset.prod_pow] at h
  exact (pow_le_pow_iff_left₀ (Finset.prod_nonneg fun i _ => (ha i).le) (Finset.prod_nonneg fun i _ => (hb i).le) (by norm_num)).1 h

theorem shearStress_eq (e : Elastic) (S : Fin n → ℝ) :
    shearStress e S = fun i => e.mu * (∏ j, S j) ^ (-2 / (n : ℝ)) * dev (fun i => S i * S i) i := by
  funext i
  simp only [shearStress, sq]

/-- The states the projection of the squares makes: mixed with their mean, the trace kept. -/
theorem mixed (hn : n ≠ 0) {S R : Fin n → ℝ} (hS : ∀ i, 0 < S i) {t : ℝ} (h0 : 0 ≤ t) (h1 : t ≤ 1)
    (hR : ∀ i, R i = Real.sqrt (S i ^ 2 - (1 - t) * dev (fun i => S i ^ 2) i)) :
    (∀ i, 0 < R i) ∧ ∑ i, R i ^ 2 = ∑ i, S i ^ 2 ∧ dev (fun i => R i ^ 2) = (fun i => t * dev (fun i => S i ^ 2) i) ∧ ∏ i, S i ≤ ∏ i, R i := by
  have hb : ∀ i, 0 < S i ^ 2 := fun i => pow_pos (hS i) 2
  have hp : ∀ i, 0 < S i ^ 2 - (1 - t) * dev (fun i => S i ^ 2) i := fun i => by
    rw [dev_mix (fun i => S i ^ 2) t i]; exact mix_pos hn hb h0 h1 i
  have hR2 : (fun i => R i ^ 2) = fun i => S i ^ 2 - (1 - t) * dev (fun i => S i ^ 2) i := by
    funext i; rw [hR i, Real.sq_sqrt (hp i).le]
  have hRp : ∀ i, 0 < R i := fun i => by rw [hR i]; exact Real.sqrt_pos.2 (hp i)
  obtain ⟨a, b⟩ := return_spec hn (fun i => S i ^ 2) t
  refine ⟨hRp, ?_, by rw [hR2, b], sqrt_prod_ge hS hRp ?_⟩
  · change tr (fun i => R i ^ 2) = _
    rw [hR2, a]; rfl
  · have : ∀ i, R i ^ 2 = t * S i ^ 2 + (1 - t) * (tr (fun i => S i ^ 2) / n) := fun i => by
      rw [← dev_mix (fun i => S i ^ 2) t i]; exact congrFun hR2 i
    rw [Finset.prod_congr rfl fun i _ => this i]
    exact prod_mix hn hb h0 h1

theorem scale_anti {x y : ℝ} (hx : 0 < x) (h : x ≤ y) : y ^ (-2 / (n : ℝ)) ≤ x ^ (-2 / (n : ℝ)) :=
  Real.rpow_le_rpow_of_nonpos hx h (div_nonpos_of_nonpos_of_nonneg (by norm_num) (Nat.cast_nonneg n))

theorem pTrial_eq {e : Elastic} {S : Fin n → ℝ} (hS : ∀ i, 0 < S i) :
    -(e.kappa / 2 * ((∏ i, S i) - 1 / ∏ i, S i)) * ∏ i, S i = pressure e S := by
  have : (∏ i, S i) ≠ 0 := (Finset.prod_pos fun i _ => hS i).ne'
  rw [pressure]
  field_simp

theorem side_eq {e : Elastic} {S : Fin n → ℝ} (hS : ∀ i, 0 < S i) :
    (fun i => e.mu / (∏ i, S i) ^ (2 / (n : ℝ)) * dev (fun i => S i * S i) i) = shearStress e S := by
  rw [shearStress_eq]
  funext i
  rw [show (-2 / (n : ℝ)) = -(2 / n) by ring, Real.rpow_neg (Finset.prod_pos fun i _ => hS i).le]
  ring

theorem p0_pos {m : CamClay} {e : Elastic} (hk : 0 < e.kappa) (hx : 0 ≤ m.xi) (logJp : ℝ) : 0 < m.p0 e logJp := by
  unfold CamClay.p0
  have : 0 ≤ Real.sinh (max (-logJp) 0) := Real.sinh_nonneg_iff.2 (le_max_right _ _)
  have := mul_nonneg hx this
  exact mul_pos hk (by linarith [show (0 : ℝ) < 1e-5 by norm_num])

/-- The parts of the projection with the names of the yield functions. -/
theorem project_cases {m : CamClay} {r : ℝ} {e : Elastic} {S : Fin n → ℝ} {logJp : ℝ} (hS : ∀ i, 0 < S i) :
    (pressure e S > m.p0 e logJp → m.project r e S logJp =
      ⟨true, fun _ => Real.sqrt (-(m.p0 e logJp + m.p0 e logJp) / e.kappa + 1) ^ (1 / (n : ℝ)),
        if m.hardeningOn then logJp + Real.log ((∏ i, S i) / Real.sqrt (-(m.p0 e logJp + m.p0 e logJp) / e.kappa + 1)) else logJp⟩) ∧
    (¬ pressure e S > m.p0 e logJp → pressure e S < -(m.beta * m.p0 e logJp) → m.project r e S logJp =
      ⟨true, fun _ => Real.sqrt ((m.beta * m.p0 e logJp + m.beta * m.p0 e logJp) / e.kappa + 1) ^ (1 / (n : ℝ)),
        if m.hardeningOn then logJp + Real.log ((∏ i, S i) / Real.sqrt ((m.beta * m.p0 e logJp + m.beta * m.p0 e logJp) / e.kappa + 1)) else logJp⟩) := by
  refine ⟨fun h => ?_, fun h1 h2 => ?_⟩
  · unfold CamClay.project
    simp only [pTrial_eq hS]
    rw [if_pos h]
  · unfold CamClay.project
    simp only [pTrial_eq hS]
    rw [if_neg h1, if_pos h2]

theorem ellipse_eq (m : CamClay) (p0 p s2 : ℝ) :
    (6 - (n : ℝ)) * 0.5 * (1 + 2 * m.beta) * s2 + m.M * m.M * (p + m.beta * p0) * (p - p0) = ellipse m n p0 p s2 := by
  rw [ellipse]; norm_num; ring

theorem project_in {m : CamClay} {r : ℝ} {e : Elastic} {S : Fin n → ℝ} {logJp : ℝ} (hS : ∀ i, 0 < S i)
    (h1 : pressure e S ≤ m.p0 e logJp) (h2 : -(m.beta * m.p0 e logJp) ≤ pressure e S)
    (hy : ellipse m n (m.p0 e logJp) (pressure e S) (normSq (shearStress e S)) < 1e-4) : m.project r e S logJp = ⟨false, S, logJp⟩ := by
  unfold CamClay.project
  simp only [pTrial_eq hS, side_eq hS, ellipse_eq]
  rw [if_neg (not_lt.2 h1), if_neg (not_lt.2 h2), if_pos hy]

open Classical in
theorem project_out {m : CamClay} {r : ℝ} {e : Elastic} {S : Fin n → ℝ} {logJp : ℝ} (hS : ∀ i, 0 < S i)
    (h1 : pressure e S ≤ m.p0 e logJp) (h2 : -(m.beta * m.p0 e logJp) ≤ pressure e S)
    (hy : 1e-4 ≤ ellipse m n (m.p0 e logJp) (pressure e S) (normSq (shearStress e S))) :
    m.project r e S logJp = ⟨true, fun i => Real.sqrt ((∏ i, S i) ^ (2 / (n : ℝ)) / e.mu *
        Real.sqrt (-(m.M * m.M * (pressure e S + m.beta * m.p0 e logJp) * (pressure e S - m.p0 e logJp)) / ((6 - (n : ℝ)) * 0.5 * (1 + 2 * m.beta))) *
          shearStress e S i / norm (shearStress e S) + 1 / n * tr (fun i => S i * S i)),
      if m.p0 e logJp > 1e-4 ∧ pressure e S < m.p0 e logJp - 1e-4 ∧ pressure e S > 1e-4 - m.beta * m.p0 e logJp then
        if m.hardeningOn then logJp + m.harden r e (m.p0 e logJp) (pressure e S) ((∏ i, S i) ^ (2 / (n : ℝ))) (norm (shearStress e S)) else logJp
      else logJp⟩ := by
  have hs : ∀ i, e.mu / (∏ i, S i) ^ (2 / (n : ℝ)) * dev (fun i => S i * S i) i = shearStress e S i := congrFun (side_eq hS)
  unfold CamClay.project
  simp only [pTrial_eq hS, hs, ellipse_eq]
  rw [if_neg (not_lt.2 h1), if_neg (not_lt.2 h2), if_neg (not_lt.2 hy)]
  by_cases hg : m.p0 e logJp > 1e-4 ∧ pressure e S < m.p0 e logJp - 1e-4 ∧ pressure e S > 1e-4 - m.beta * m.p0 e logJp
  · rw [if_pos hg, if_pos hg]
  · rw [if_neg hg, if_neg hg]

/-- Length of the projected deviator against the trial one. -/
theorem out_ratio {m : CamClay} {e : Elastic} {S : Fin n → ℝ} {p0 : ℝ} (hn6 : n < 6) (hb : 0 ≤ m.beta)
    (h1 : pressure e S ≤ p0) (h2 : -(m.beta * p0) ≤ pressure e S)
    (hy : 1e-4 ≤ ellipse m n p0 (pressure e S) (normSq (shearStress e S))) :
    0 ≤ -(m.M * m.M * (pressure e S + m.beta * p0) * (pressure e S - p0)) / ((6 - (n : ℝ)) * 0.5 * (1 + 2 * m.beta)) ∧
    -(m.M * m.M * (pressure e S + m.beta * p0) * (pressure e S - p0)) / ((6 - (n : ℝ)) * 0.5 * (1 + 2 * m.beta)) < normSq (shearStress e S) ∧
    0 < (6 - (n : ℝ)) * 0.5 * (1 + 2 * m.beta) := by
  have h6 : (0 : ℝ) < 6 - n := by have : (n : ℝ) < 6 := by exact_mod_cast hn6
                                  linarith
  have hc : 0 < (6 - (n : ℝ)) * 0.5 * (1 + 2 * m.beta) := by positivity
  refine ⟨div_nonneg ?_ hc.le, ?_, hc⟩
  · have := mul_nonneg (mul_nonneg (mul_self_nonneg m.M) (show 0 ≤ pressure e S + m.beta * p0 by linarith)) (show 0 ≤ p0 - pressure e S by linarith)
    linarith
  · rw [div_lt_iff₀ hc]
    rw [← ellipse_eq] at hy
    have : (0 : ℝ) < 1e-4 := by norm_num
    linarith

end Verif.Plastic
