import Verif.Spec.Friction
import Mathlib.Analysis.SpecialFunctions.Sqrt
import Mathlib.Analysis.Calculus.Deriv.Mul
import Mathlib.Analysis.Calculus.Deriv.Slope
import Mathlib.Analysis.Calculus.Deriv.Inv
import Mathlib.Tactic.Linarith
import Mathlib.Tactic.FieldSimp
import Mathlib.Tactic.LinearCombination
import Mathlib.Tactic.FinCases

/-! Helper lemmas for friction. -/
namespace Verif.Friction

open Verif.Rotation (V cross dot3 nsq3 unit3)

theorem nsq3_nonneg (a : V 3) : 0 ≤ nsq3 a := by unfold nsq3; nlinarith [mul_self_nonneg (a 0), mul_self_nonneg (a 1), mul_self_nonneg (a 2)]

theorem nsq3_pos {a : V 3} {i : Fin 3} (h : a i ≠ 0) : 0 < nsq3 a := by
  unfold nsq3
  have := mul_self_pos.2 h
  rcases (by omega : i = 0 ∨ i = 1 ∨ i = 2) with rfl | rfl | rfl <;> nlinarith [mul_self_nonneg (a 0), mul_self_nonneg (a 1), mul_self_nonneg (a 2)]

theorem unit_len {a : V 3} (h : 0 < nsq3 a) : ∑ d, unit3 a d * unit3 a d = 1 := by
  simp only [Fin.sum_univ_three, unit3]
  have hs : Real.sqrt (nsq3 a) * Real.sqrt (nsq3 a) = nsq3 a := Real.mul_self_sqrt h.le
  have hp : 0 < Real.sqrt (nsq3 a) := Real.sqrt_pos.2 h
  rw [div_mul_div_comm, div_mul_div_comm, div_mul_div_comm, hs, ← add_div, ← add_div]
  exact div_self h.ne'

theorem unit_dot {a w : V 3} (h : dot3 a w = 0) : ∑ d, unit3 a d * w d = 0 := by
  simp only [Fin.sum_univ_three, unit3]
  have : a 0 / Real.sqrt (nsq3 a) * w 0 + a 1 / Real.sqrt (nsq3 a) * w 1 + a 2 / Real.sqrt (nsq3 a) * w 2 = dot3 a w / Real.sqrt (nsq3 a) := by
    unfold dot3; ring
  rw [this, h, zero_div]

theorem unit_dot_unit {a b : V 3} (h : dot3 a b = 0) : ∑ d, unit3 a d * unit3 b d = 0 := by
  refine unit_dot ?_
  unfold dot3 unit3
  have : a 0 * (b 0 / Real.sqrt (nsq3 b)) + a 1 * (b 1 / Real.sqrt (nsq3 b)) + a 2 * (b 2 / Real.sqrt (nsq3 b)) = dot3 a b / Real.sqrt (nsq3 b) := by
    unfold dot3; ring
  rw [this, h, zero_div]

theorem tangent_of {a b w : V 3} (ha : 0 < nsq3 a) (hb : 0 < nsq3 b) (hab : dot3 a b = 0) (haw : dot3 a w = 0) (hbw : dot3 b w = 0) :
    Tangent (columns (unit3 a) (unit3 b)) w := by
  refine ⟨fun k => ?_, ?_, fun k => ?_⟩
  · fin_cases k
    · exact unit_len ha
    · exact unit_len hb
  · exact unit_dot_unit hab
  · fin_cases k
    · exact unit_dot haw
    · exact unit_dot hbw

theorem nsq_cross (a b : V 3) : nsq3 (cross a b) = nsq3 a * nsq3 b - dot3 a b ^ 2 := by
  simp only [nsq3, cross, dot3, Matrix.cons_val_zero, Matrix.cons_val_one, Matrix.cons_val]
  ring

theorem apart_pos {a b : V 3} (h : Apart a b) : 0 < nsq3 (cross a b) ∧ 0 < nsq3 a ∧ 0 < nsq3 b := by
  obtain ⟨i, hi⟩ := h
  have h1 := nsq3_pos hi
  have h2 := nsq_cross a b
  have ha := nsq3_nonneg a
  have hb := nsq3_nonneg b
  refine ⟨h1, lt_of_le_of_ne ha fun h0 => ?_, lt_of_le_of_ne hb fun h0 => ?_⟩
  · rw [← h0] at h2; nlinarith [sq_nonneg (dot3 a b)]
  · rw [← h0] at h2; nlinarith [sq_nonneg (dot3 a b)]

theorem cross_cross_pos {a b : V 3} (h : Apart a b) : 0 < nsq3 (cross (cross a b) a) := by
  obtain ⟨h1, h2, -⟩ := apart_pos h
  rw [nsq_cross]
  have : dot3 (cross a b) a = 0 := by
    simp only [cross, dot3, Matrix.cons_val_zero, Matrix.cons_val_one, Matrix.cons_val]; ring
  rw [this]
  nlinarith [mul_pos h1 h2]

/-- `x * sqrt x` and its derivative. -/
theorem hasDerivAt_mul_sqrt (x : ℝ) (h : 0 ≤ x) : HasDerivAt (fun y => y * Real.sqrt y) (3 / 2 * Real.sqrt x) x := by
  rcases eq_or_lt_of_le h with h | h
  · subst h
    have hc : ContinuousAt (fun y : ℝ => Real.sqrt y) 0 := Real.continuous_sqrt.continuousAt
    rw [hasDerivAt_iff_tendsto_slope]
    have e : Set.EqOn (slope (fun y : ℝ => y * Real.sqrt y) 0) (fun y => Real.sqrt y) {0}ᶜ := by
      intro y hy
      have hy' : y ≠ 0 := hy
      simp only [slope, vsub_eq_sub, sub_zero, zero_mul, smul_eq_mul]
      field_simp
    have ht : Filter.Tendsto (fun y : ℝ => Real.sqrt y) (nhdsWithin 0 {0}ᶜ) (nhds (3 / 2 * Real.sqrt 0)) := by
      have := hc.tendsto.mono_left (nhdsWithin_le_nhds (s := {0}ᶜ))
      simpa using this
    exact ht.congr' (Filter.eventuallyEq_of_mem self_mem_nhdsWithin fun y hy => (e hy).symm)
  · have h1 := (hasDerivAt_id x).mul (Real.hasDerivAt_sqrt h.ne')
    refine h1.congr_deriv ?_
    have : 0 < Real.sqrt x := Real.sqrt_pos.2 h
    have hs : x = Real.sqrt x * Real.sqrt x := (Real.mul_self_sqrt h.le).symm
    simp only [id]
    field_simp
    nlinarith

/-- Inner part of `f0`. -/
theorem inner_deriv (e x : ℝ) (h : 0 ≤ x) :
    HasDerivAt (fun y => y * (-Real.sqrt y / 3 + e) / (e * e) + e / 3) ((-Real.sqrt x + 2 * e) / (e * e) / 2) x := by
  have h1 := hasDerivAt_mul_sqrt x h
  have h2 : HasDerivAt (fun y : ℝ => -(y * Real.sqrt y) / 3 + e * y) (-(3 / 2 * Real.sqrt x) / 3 + e * 1) x := by
    exact (h1.neg.div_const 3).add ((hasDerivAt_id x).const_mul e)
  have h3 := (h2.div_const (e * e)).add_const (e / 3)
  have e1 : (fun y => y * (-Real.sqrt y / 3 + e) / (e * e) + e / 3) = fun y => (-(y * Real.sqrt y) / 3 + e * y) / (e * e) + e / 3 := by
    funext y; ring
  rw [e1]
  exact h3.congr_deriv (by ring)

theorem outer_deriv {x : ℝ} (h : 0 < x) : HasDerivAt (fun y => Real.sqrt y) (1 / Real.sqrt x / 2) x :=
  (Real.hasDerivAt_sqrt h.ne').congr_deriv (by ring)

theorem solve2_spec {a00 a01 a10 a11 b0 b1 : ℝ} (h : a00 * a11 - a01 * a10 ≠ 0) :
    a00 * solve2 a00 a01 a10 a11 b0 b1 0 + a01 * solve2 a00 a01 a10 a11 b0 b1 1 = b0 ∧
    a10 * solve2 a00 a01 a10 a11 b0 b1 0 + a11 * solve2 a00 a01 a10 a11 b0 b1 1 = b1 := by
  simp only [solve2, Matrix.cons_val_zero, Matrix.cons_val_one]
  have hi := mul_one_div_cancel h
  generalize 1 / (a00 * a11 - a01 * a10) = i at *
  exact ⟨by linear_combination b0 * hi, by linear_combination b1 * hi⟩

/-- The difference of the closest points is at a right angle to the edge. -/
theorem pe_normal {v0 v1 v2 : V 3} (h : 0 < nsq3 (sub v2 v1)) : dot3 (sub v2 v1) (peRel ![v0, v1, v2] (peClosest v0 v1 v2)) = 0 := by
  have hy : peClosest v0 v1 v2 * nsq3 (sub v2 v1) = dot3 (sub v0 v1) (sub v2 v1) := div_mul_cancel₀ _ h.ne'
  generalize peClosest v0 v1 v2 = y at *
  simp only [dot3, nsq3, sub, peRel, Matrix.cons_val_zero, Matrix.cons_val_one, Matrix.cons_val] at *
  linear_combination -hy

theorem pt_normal {v0 v1 v2 v3 : V 3} (h : 0 < nsq3 (cross (sub v2 v1) (sub v3 v1))) :
    dot3 (sub v2 v1) (ptRel ![v0, v1, v2, v3] (ptClosest v0 v1 v2 v3 0) (ptClosest v0 v1 v2 v3 1)) = 0 ∧
    dot3 (sub v3 v1) (ptRel ![v0, v1, v2, v3] (ptClosest v0 v1 v2 v3 0) (ptClosest v0 v1 v2 v3 1)) = 0 := by
  have hd : dot3 (sub v2 v1) (sub v2 v1) * dot3 (sub v3 v1) (sub v3 v1) - dot3 (sub v2 v1) (sub v3 v1) * dot3 (sub v3 v1) (sub v2 v1) ≠ 0 := by
    rw [nsq_cross] at h
    refine (lt_of_lt_of_eq h ?_).ne'
    simp only [nsq3, dot3]; ring
  obtain ⟨a, b⟩ := solve2_spec (b0 := dot3 (sub v2 v1) (sub v0 v1)) (b1 := dot3 (sub v3 v1) (sub v0 v1)) hd
  change _ * ptClosest v0 v1 v2 v3 0 + _ * ptClosest v0 v1 v2 v3 1 = _ at a
  change _ * ptClosest v0 v1 v2 v3 0 + _ * ptClosest v0 v1 v2 v3 1 = _ at b
  generalize ptClosest v0 v1 v2 v3 = y at *
  simp only [dot3, sub, ptRel, Matrix.cons_val_zero, Matrix.cons_val_one, Matrix.cons_val] at *
  exact ⟨by linear_combination -a, by linear_combination -b⟩

theorem ee_normal {v0 v1 v2 v3 : V 3} (h : 0 < nsq3 (cross (sub v1 v0) (sub v3 v2))) :
    dot3 (sub v1 v0) (eeRel ![v0, v1, v2, v3] (eeClosest v0 v1 v2 v3 0) (eeClosest v0 v1 v2 v3 1)) = 0 ∧
    dot3 (sub v3 v2) (eeRel ![v0, v1, v2, v3] (eeClosest v0 v1 v2 v3 0) (eeClosest v0 v1 v2 v3 1)) = 0 := by
  have hd : nsq3 (sub v1 v0) * nsq3 (sub v3 v2) - -dot3 (sub v3 v2) (sub v1 v0) * -dot3 (sub v3 v2) (sub v1 v0) ≠ 0 := by
    rw [nsq_cross] at h
    refine (lt_of_lt_of_eq h ?_).ne'
    simp only [nsq3, dot3]; ring
  obtain ⟨a, b⟩ := solve2_spec (b0 := -dot3 (sub v0 v2) (sub v1 v0)) (b1 := dot3 (sub v0 v2) (sub v3 v2)) hd
  change _ * eeClosest v0 v1 v2 v3 0 + _ * eeClosest v0 v1 v2 v3 1 = _ at a
  change _ * eeClosest v0 v1 v2 v3 0 + _ * eeClosest v0 v1 v2 v3 1 = _ at b
  generalize eeClosest v0 v1 v2 v3 = y at *
  simp only [dot3, nsq3, sub, eeRel, Matrix.cons_val_zero, Matrix.cons_val_one, Matrix.cons_val] at *
  exact ⟨by linear_combination a, by linear_combination -b⟩

end Verif.Friction
