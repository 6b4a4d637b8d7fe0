import Verif.Proof.Rotation
import Mathlib.Analysis.SpecialFunctions.Trigonometric.Deriv

/-!
Extraction of axes and angles; rotations between vectors.
-/
namespace Verif.Rotation

theorem ofAxis_entries (u : AngleUnit) (p : V 3) (a : ℝ) {c s : ℝ} {q : V 3} (hc : Real.cos (toRad u a) = c) (hs : Real.sin (toRad u a) = s) (hq : unit3 p = q) {R : M 3}
    (h00 : c + (1 - c) * (q 0 * q 0) = R 0 0) (h01 : (1 - c) * (q 0 * q 1) - s * q 2 = R 0 1) (h02 : (1 - c) * (q 0 * q 2) + s * q 1 = R 0 2)
    (h10 : (1 - c) * (q 1 * q 0) + s * q 2 = R 1 0) (h11 : c + (1 - c) * (q 1 * q 1) = R 1 1) (h12 : (1 - c) * (q 1 * q 2) - s * q 0 = R 1 2)
    (h20 : (1 - c) * (q 2 * q 0) - s * q 1 = R 2 0) (h21 : (1 - c) * (q 2 * q 1) + s * q 0 = R 2 1) (h22 : c + (1 - c) * (q 2 * q 2) = R 2 2) : ofAxis u p a = R := by
  unfold ofAxis
  simp only [hc, hs, hq]
  apply m_ext
  · rw [← h00]; simp
  · rw [← h01]; simp
  · rw [← h02]; simp
  · rw [← h10]; simp
  · rw [← h11]; simp
  · rw [← h12]; simp
  · rw [← h20]; simp
  · rw [← h21]; simp
  · rw [← h22]; simp

/-- Scaling a vector by a positive number does not change its direction. -/
theorem unit3_div {v : V 3} {s t : ℝ} (ht : 0 < t) (hs : 0 < s) (h : nsq3 v = s * s) : unit3 ![v 0 / t, v 1 / t, v 2 / t] = fun i => v i / s := by
  have hn : nsq3 ![v 0 / t, v 1 / t, v 2 / t] = (s / t) * (s / t) := by
    unfold nsq3 at *
    simp
    field_simp
    linarith
  have hd : 0 < s / t := div_pos hs ht
  unfold unit3
  rw [hn, Real.sqrt_mul_self hd.le]
  ext i
  fin_cases i <;> simp <;> field_simp

theorem cos_range {R : M 3} (f : Facts R) : -1 ≤ 0.5 * (R 0 0 + R 1 1 + R 2 2 - 1) ∧ 0.5 * (R 0 0 + R 1 1 + R 2 2 - 1) ≤ 1 := by
  have h := f.axis.2.2.2.2.2.2
  have h0 := mul_self_nonneg ((R 2 1 - R 1 2) * 0.5)
  have h1 := mul_self_nonneg ((R 0 2 - R 2 0) * 0.5)
  have h2 := mul_self_nonneg ((R 1 0 - R 0 1) * 0.5)
  generalize 0.5 * (R 0 0 + R 1 1 + R 2 2 - 1) = c at *
  constructor <;> nlinarith

theorem extractAxis_generic_aux (sq : ℝ → ℝ) {eps : ℝ} (u : AngleUnit) {R : M 3} (h : IsRot R) (h0 : 0 ≤ eps)
    (n1 : ¬ NearZero eps (0.5 * (R 0 0 + R 1 1 + R 2 2 - 1) - 1)) (n2 : ¬ NearZero eps (0.5 * (R 0 0 + R 1 1 + R 2 2 - 1) + 1))
    (hsq : 0 < sq (1 - 0.5 * (R 0 0 + R 1 1 + R 2 2 - 1) * (0.5 * (R 0 0 + R 1 1 + R 2 2 - 1)))) :
    ofAxis u (extractAxis sq eps u R).1 (extractAxis sq eps u R).2 = R := by
  have f := h.facts
  obtain ⟨lo, hi⟩ := cos_range f
  obtain ⟨e0, e1, e2, e01, e02, e12, en⟩ := f.axis
  unfold extractAxis
  simp only [if_neg n1, if_neg n2]
  generalize 0.5 * (R 0 0 + R 1 1 + R 2 2 - 1) = c at *
  have hc1 : c < 1 := by
    by_contra hh; exact n1 ⟨by linarith, by linarith⟩
  have hc2 : -1 < c := by
    by_contra hh; exact n2 ⟨by linarith, by linarith⟩
  have hpos : 0 < 1 - c * c := by nlinarith
  have hs2 := Real.mul_self_sqrt hpos.le
  have hs0 := Real.sqrt_pos.2 hpos
  have hsin : Real.sin (Real.arccos c) = Real.sqrt (1 - c * c) := by rw [Real.sin_arccos]; ring_nf
  have hu := unit3_div (v := ![(R 2 1 - R 1 2) * 0.5, (R 0 2 - R 2 0) * 0.5, (R 1 0 - R 0 1) * 0.5]) hsq hs0 (by
    unfold nsq3; simp only [Matrix.cons_val_zero, Matrix.cons_val_one, Matrix.cons_val]; rw [en, hs2])
  simp only [Matrix.cons_val_zero, Matrix.cons_val_one, Matrix.cons_val] at hu
  generalize sq (1 - c * c) = t at *
  generalize Real.sqrt (1 - c * c) = s at *
  have h1c : (1 + c) ≠ 0 := by linarith
  have hss : s * s = (1 - c) * (1 + c) := by rw [hs2]; ring
  have key : ∀ x y z : ℝ, (1 + c) * z = x * y → (1 - c) * (x / s * (y / s)) = z := by
    intro x y z hz
    have : (1 - c) * (x / s * (y / s)) = (1 - c) * (x * y) / (s * s) := by field_simp
    rw [this, ← hz, hss]
    have : (1 - c) ≠ 0 := by linarith
    field_simp
  have ks : ∀ x : ℝ, s * (x / s) = x := fun x => mul_div_cancel₀ x hs0.ne'
  refine ofAxis_entries u _ _ (c := c) (s := s) (by rw [rad_fromRad, Real.cos_arccos lo hi]) (by rw [rad_fromRad, hsin]) hu ?_ ?_ ?_ ?_ ?_ ?_ ?_ ?_ ?_ <;>
    simp only [Matrix.cons_val_zero, Matrix.cons_val_one, Matrix.cons_val, ks]
  · rw [key _ _ _ e0]; ring
  · rw [key _ _ _ e01]; ring
  · rw [key _ _ _ e02]; ring
  · rw [key _ _ _ (e01.trans (mul_comm _ _))]; ring
  · rw [key _ _ _ e1]; ring
  · rw [key _ _ _ e12]; ring
  · rw [key _ _ _ (e02.trans (mul_comm _ _))]; ring
  · rw [key _ _ _ (e12.trans (mul_comm _ _))]; ring
  · rw [key _ _ _ e2]; ring

theorem antisym_zero {R : M 3} (f : Facts R) (hc : 0.5 * (R 0 0 + R 1 1 + R 2 2 - 1) * (0.5 * (R 0 0 + R 1 1 + R 2 2 - 1)) = 1) :
    R 2 1 = R 1 2 ∧ R 0 2 = R 2 0 ∧ R 1 0 = R 0 1 := by
  have en := f.axis.2.2.2.2.2.2
  rw [hc] at en
  have h0 := mul_self_nonneg ((R 2 1 - R 1 2) * 0.5)
  have h1 := mul_self_nonneg ((R 0 2 - R 2 0) * 0.5)
  have h2 := mul_self_nonneg ((R 1 0 - R 0 1) * 0.5)
  have z0 : (R 2 1 - R 1 2) * 0.5 = 0 := mul_self_eq_zero.1 (by linarith)
  have z1 : (R 0 2 - R 2 0) * 0.5 = 0 := mul_self_eq_zero.1 (by linarith)
  have z2 : (R 1 0 - R 0 1) * 0.5 = 0 := mul_self_eq_zero.1 (by linarith)
  refine ⟨?_, ?_, ?_⟩ <;> linarith

theorem trace_three {R : M 3} (h : IsRot R) (ht : R 0 0 + R 1 1 + R 2 2 = 3) : R = 1 := by
  have f := h.facts
  obtain ⟨s21, s02, s10⟩ := antisym_zero f (by rw [ht]; norm_num)
  obtain ⟨e0, e1, e2, e01, e02, e12, en⟩ := f.axis
  rw [ht] at e0 e1 e2 e01 e02 e12
  rw [s21] at e0 e01 e02 e12
  rw [s02] at e1 e01 e02 e12
  rw [s10] at e2 e01 e02 e12
  norm_num at e0 e1 e2 e01 e02 e12
  apply m_ext <;> simp <;> linarith

theorem extractAxis_one_aux (sq : ℝ → ℝ) {eps : ℝ} (u : AngleUnit) {R : M 3} (h : IsRot R) (h0 : 0 ≤ eps) (ht : R 0 0 + R 1 1 + R 2 2 = 3) :
    ofAxis u (extractAxis sq eps u R).1 (extractAxis sq eps u R).2 = R := by
  have e := trace_three h ht
  have n1 : NearZero eps (0.5 * (R 0 0 + R 1 1 + R 2 2 - 1) - 1) := by
    rw [ht]; constructor <;> norm_num <;> linarith
  unfold extractAxis
  simp only [if_pos n1]
  have hz : toRad u 0 = 0 := by cases u <;> simp [toRad]
  unfold ofAxis
  simp only [hz, Real.cos_zero, Real.sin_zero, sub_self, zero_smul, one_smul, add_zero, sub_zero]
  exact e.symm

theorem half_turn {R : M 3} (f : Facts R) (ht : R 0 0 + R 1 1 + R 2 2 = -1) : R 2 1 = R 1 2 ∧ R 0 2 = R 2 0 ∧ R 1 0 = R 0 1 ∧
    (R 0 0 + 1) * (R 1 1 + 1) = R 0 1 * R 0 1 ∧ (R 0 0 + 1) * (R 2 2 + 1) = R 0 2 * R 0 2 ∧ (R 1 1 + 1) * (R 2 2 + 1) = R 1 2 * R 1 2 ∧
    R 0 1 * R 0 2 = R 1 2 * (R 0 0 + 1) ∧ 0 ≤ R 0 0 + 1 ∧ 0 ≤ R 1 1 + 1 ∧ 0 ≤ R 2 2 + 1 := by
  obtain ⟨s21, s02, s10⟩ := antisym_zero f (by rw [ht]; norm_num)
  obtain ⟨r00, r11, r22, r01, r02, r12, c00, c11, c22, c01, c02, c12, k00, k01, k02, k10, k11, k12, k20, k21, k22⟩ := f
  refine ⟨s21, s02, s10, ?_, ?_, ?_, ?_, ?_, ?_, ?_⟩
  · rw [s10] at k22; linear_combination k22 + ht
  · rw [← s02] at k11; linear_combination k11 + ht
  · rw [s21] at k00; linear_combination k00 + ht
  · rw [s21, ← s02] at k12; linear_combination k12
  · nlinarith [mul_self_nonneg (R 0 1), mul_self_nonneg (R 0 2), mul_self_nonneg (R 0 0 + 1)]
  · nlinarith [mul_self_nonneg (R 1 0), mul_self_nonneg (R 1 2), mul_self_nonneg (R 1 1 + 1)]
  · nlinarith [mul_self_nonneg (R 2 0), mul_self_nonneg (R 2 1), mul_self_nonneg (R 2 2 + 1)]

theorem ofAxis_half (u : AngleUnit) {R : M 3} {p : V 3} {a : ℝ} (ha : toRad u a = Real.pi) (s21 : R 2 1 = R 1 2) (s02 : R 0 2 = R 2 0) (s10 : R 1 0 = R 0 1)
    (p00 : 2 * (p 0 * p 0) = R 0 0 + 1) (p11 : 2 * (p 1 * p 1) = R 1 1 + 1) (p22 : 2 * (p 2 * p 2) = R 2 2 + 1) (p01 : 2 * (p 0 * p 1) = R 0 1)
    (p02 : 2 * (p 0 * p 2) = R 0 2) (p12 : 2 * (p 1 * p 2) = R 1 2) (ht : R 0 0 + R 1 1 + R 2 2 = -1) : ofAxis u p a = R := by
  have hu : unit3 p = p := by
    have : nsq3 p = 1 := by unfold nsq3; linarith
    unfold unit3
    rw [this, Real.sqrt_one]; ext i; simp
  refine ofAxis_entries u p a (c := -1) (s := 0) (by rw [ha, Real.cos_pi]) (by rw [ha, Real.sin_pi]) hu ?_ ?_ ?_ ?_ ?_ ?_ ?_ ?_ ?_ <;> linarith

theorem extractAxis_half_aux {eps : ℝ} (u : AngleUnit) {R : M 3} (h : IsRot R) (h0 : 0 ≤ eps) (h2 : eps < 2) (ht : R 0 0 + R 1 1 + R 2 2 = -1)
    (hn : NearZero eps (Real.sqrt ((R 0 0 + 1) * 0.5)) → R 0 0 = -1) :
    ofAxis u (extractAxis Real.sqrt eps u R).1 (extractAxis Real.sqrt eps u R).2 = R := by
  obtain ⟨s21, s02, s10, q01, q02, q12, qq, g0, g1, g2⟩ := half_turn h.facts ht
  have hc : (0.5 : ℝ) * (R 0 0 + R 1 1 + R 2 2 - 1) = -1 := by rw [ht]; norm_num
  have n1 : ¬ NearZero eps ((-1 : ℝ) - 1) := by
    rintro ⟨h1, _⟩; linarith
  have n2 : NearZero eps ((-1 : ℝ) + 1) := by constructor <;> linarith
  have hpi : toRad u (fromRad u (Real.arccos (-1))) = Real.pi := by rw [rad_fromRad, Real.arccos_neg_one]
  have hsq : ∀ v : ℝ, 0 ≤ v + 1 → 2 * (Real.sqrt ((v + 1) * 0.5) * Real.sqrt ((v + 1) * 0.5)) = v + 1 := by
    intro v hv; rw [Real.mul_self_sqrt (by linarith)]; ring
  unfold extractAxis
  simp only [hc, if_neg n1, if_pos n2]
  by_cases hz : NearZero eps (Real.sqrt ((R 0 0 + 1) * 0.5))
  · simp only [if_pos hz]
    have e0 := hn hz
    have p0 : Real.sqrt ((R 0 0 + 1) * 0.5) = 0 := by rw [e0]; norm_num
    rw [e0] at q01 q02
    have z01 : R 0 1 = 0 := mul_self_eq_zero.1 (by linarith)
    have z02 : R 0 2 = 0 := mul_self_eq_zero.1 (by linarith)
    have h12 : 2 * (Real.sqrt ((R 1 1 + 1) * 0.5) * Real.sqrt ((R 2 2 + 1) * 0.5)) = |R 1 2| := by
      rw [← Real.sqrt_mul (by linarith), ← Real.sqrt_mul_self_eq_abs]
      have : (R 1 1 + 1) * 0.5 * ((R 2 2 + 1) * 0.5) = (R 1 2 * R 1 2) * (0.5 * 0.5) := by rw [← q12]; ring
      rw [this, Real.sqrt_mul (mul_self_nonneg _), Real.sqrt_mul_self (show (0 : ℝ) ≤ 0.5 by norm_num)]; ring
    have a1 := hsq _ g1
    have a2 := hsq _ g2
    rw [p0]
    generalize Real.sqrt ((R 1 1 + 1) * 0.5) = p1 at *
    generalize Real.sqrt ((R 2 2 + 1) * 0.5) = p2 at *
    split_ifs with hneg
    · refine ofAxis_half u hpi s21 s02 s10 ?_ ?_ ?_ ?_ ?_ ?_ ht <;> simp only [Matrix.cons_val_zero, Matrix.cons_val_one, Matrix.cons_val]
      · rw [e0]; norm_num
      · exact a1
      · linarith
      · rw [z01]; ring
      · rw [z02]; ring
      · rw [abs_of_neg hneg] at h12; linarith
    · refine ofAxis_half u hpi s21 s02 s10 ?_ ?_ ?_ ?_ ?_ ?_ ht <;> simp only [Matrix.cons_val_zero, Matrix.cons_val_one, Matrix.cons_val]
      · rw [e0]; norm_num
      · exact a1
      · exact a2
      · rw [z01]; ring
      · rw [z02]; ring
      · rw [abs_of_nonneg (not_lt.1 hneg)] at h12; exact h12
  · simp only [if_neg hz]
    have a0 := hsq _ g0
    have pne : Real.sqrt ((R 0 0 + 1) * 0.5) ≠ 0 := by
      intro e; apply hz; rw [e]; constructor <;> linarith
    generalize Real.sqrt ((R 0 0 + 1) * 0.5) = p0 at *
    have hne : R 0 0 + 1 ≠ 0 := by rw [← a0]; positivity
    refine ofAxis_half u hpi s21 s02 s10 ?_ ?_ ?_ ?_ ?_ ?_ ht <;> simp only [Matrix.cons_val_zero, Matrix.cons_val_one, Matrix.cons_val]
    · exact a0
    · have : 2 * (R 0 1 * 0.5 / p0 * (R 0 1 * 0.5 / p0)) = R 0 1 * R 0 1 / (2 * (p0 * p0)) := by field_simp; ring
      rw [this, a0, ← q01]; field_simp
    · have : 2 * (R 0 2 * 0.5 / p0 * (R 0 2 * 0.5 / p0)) = R 0 2 * R 0 2 / (2 * (p0 * p0)) := by field_simp; ring
      rw [this, a0, ← q02]; field_simp
    · field_simp; ring
    · field_simp; ring
    · have : 2 * (R 0 1 * 0.5 / p0 * (R 0 2 * 0.5 / p0)) = R 0 1 * R 0 2 / (2 * (p0 * p0)) := by field_simp; ring
      rw [this, a0, qq]; field_simp

/-! ## Angles -/

theorem roe_entries (u : AngleUnit) {a b c : ℝ} {R : M 3} {cp sp ct st cf sf : ℝ} (h1 : Real.cos (toRad u a) = cp) (h2 : Real.sin (toRad u a) = sp)
    (h3 : Real.cos (toRad u b) = ct) (h4 : Real.sin (toRad u b) = st) (h5 : Real.cos (toRad u c) = cf) (h6 : Real.sin (toRad u c) = sf)
    (e00 : cp * ct * cf - sp * sf = R 0 0) (e01 : -(cp * ct) * sf - sp * cf = R 0 1) (e02 : cp * st = R 0 2)
    (e10 : sp * ct * cf + cp * sf = R 1 0) (e11 : -(sp * ct) * sf + cp * cf = R 1 1) (e12 : sp * st = R 1 2)
    (e20 : -st * cf = R 2 0) (e21 : st * sf = R 2 1) (e22 : ct = R 2 2) : ofEuler u .roe a b c = R := by
  unfold ofEuler
  simp only [h1, h2, h3, h4, h5, h6]
  apply m_ext <;> simp only [Matrix.of_apply, Matrix.cons_val', Matrix.cons_val_zero, Matrix.cons_val_one, Matrix.cons_val] <;> assumption

theorem ypr_entries (u : AngleUnit) {a b c : ℝ} {R : M 3} {cp sp ct st cf sf : ℝ} (h1 : Real.cos (toRad u a) = cp) (h2 : Real.sin (toRad u a) = sp)
    (h3 : Real.cos (toRad u b) = ct) (h4 : Real.sin (toRad u b) = st) (h5 : Real.cos (toRad u c) = cf) (h6 : Real.sin (toRad u c) = sf)
    (e00 : ct * cp = R 0 0) (e01 : ct * sp = R 0 1) (e02 : -st = R 0 2)
    (e10 : sf * st * cp - cf * sp = R 1 0) (e11 : sf * st * sp + cf * cp = R 1 1) (e12 : sf * ct = R 1 2)
    (e20 : cf * st * cp + sf * sp = R 2 0) (e21 : cf * st * sp - sf * cp = R 2 1) (e22 : cf * ct = R 2 2) : ofEuler u .ypr a b c = R := by
  unfold ofEuler
  simp only [h1, h2, h3, h4, h5, h6]
  apply m_ext <;> simp only [Matrix.of_apply, Matrix.cons_val', Matrix.cons_val_zero, Matrix.cons_val_one, Matrix.cons_val] <;> assumption

theorem roe_generic {R : M 3} (h : IsRot R) (u : AngleUnit) (h1 : R 2 2 < 1) (h2 : -1 < R 2 2) :
    ofEuler u .roe (fromRad u (atan2 (R 1 2) (R 0 2))) (fromRad u (Real.arccos (R 2 2))) (fromRad u (atan2 (R 2 1) (-R 2 0))) = R := by
  obtain ⟨r00, r11, r22, r01, r02, r12, c00, c11, c22, c01, c02, c12, k00, k01, k02, k10, k11, k12, k20, k21, k22⟩ := h.facts
  have hpos : 0 < 1 - R 2 2 * R 2 2 := by nlinarith
  have hs2 := Real.mul_self_sqrt hpos.le
  have hs0 := Real.sqrt_pos.2 hpos
  have hsin : Real.sin (Real.arccos (R 2 2)) = Real.sqrt (1 - R 2 2 * R 2 2) := by rw [Real.sin_arccos]; ring_nf
  generalize Real.sqrt (1 - R 2 2 * R 2 2) = s at *
  obtain ⟨a1, a2⟩ := atan2_spec (x := R 0 2) (y := R 1 2) hs0 (by linarith)
  obtain ⟨b1, b2⟩ := atan2_spec (x := -R 2 0) (y := R 2 1) hs0 (by linarith)
  have hne := hs0.ne'
  refine roe_entries u (by rw [rad_fromRad, a1]) (by rw [rad_fromRad, a2]) (by rw [rad_fromRad, Real.cos_arccos h2.le h1.le]) (by rw [rad_fromRad, hsin])
    (by rw [rad_fromRad, b1]) (by rw [rad_fromRad, b2]) ?_ ?_ ?_ ?_ ?_ ?_ ?_ ?_ rfl
  · field_simp; grind
  · field_simp; grind
  · field_simp
  · field_simp; grind
  · field_simp; grind
  · field_simp
  · field_simp
  · field_simp

theorem ypr_generic {R : M 3} (h : IsRot R) (u : AngleUnit) (h1 : -R 0 2 < 1) (h2 : -1 < -R 0 2) :
    ofEuler u .ypr (fromRad u (atan2 (R 0 1) (R 0 0))) (fromRad u (Real.arcsin (-R 0 2))) (fromRad u (atan2 (R 1 2) (R 2 2))) = R := by
  obtain ⟨r00, r11, r22, r01, r02, r12, c00, c11, c22, c01, c02, c12, k00, k01, k02, k10, k11, k12, k20, k21, k22⟩ := h.facts
  have hpos : 0 < 1 - R 0 2 * R 0 2 := by nlinarith
  have hs2 := Real.mul_self_sqrt hpos.le
  have hs0 := Real.sqrt_pos.2 hpos
  have hcos : Real.cos (Real.arcsin (-R 0 2)) = Real.sqrt (1 - R 0 2 * R 0 2) := by rw [Real.cos_arcsin]; ring_nf
  generalize Real.sqrt (1 - R 0 2 * R 0 2) = s at *
  obtain ⟨a1, a2⟩ := atan2_spec (x := R 0 0) (y := R 0 1) hs0 (by linarith)
  obtain ⟨b1, b2⟩ := atan2_spec (x := R 2 2) (y := R 1 2) hs0 (by linarith)
  have hne := hs0.ne'
  refine ypr_entries u (by rw [rad_fromRad, a1]) (by rw [rad_fromRad, a2]) (by rw [rad_fromRad, hcos]) (by rw [rad_fromRad, Real.sin_arcsin h2.le h1.le])
    (by rw [rad_fromRad, b1]) (by rw [rad_fromRad, b2]) ?_ ?_ ?_ ?_ ?_ ?_ ?_ ?_ ?_
  · field_simp
  · field_simp
  · ring
  · field_simp; grind
  · field_simp; grind
  · field_simp
  · field_simp; grind
  · field_simp; grind
  · field_simp

theorem rad_zero (u : AngleUnit) : toRad u (fromRad u 0) = 0 := rad_fromRad u 0

theorem roe_gimbal {R : M 3} (h : IsRot R) (u : AngleUnit) :
    (R 2 2 = 1 → ofEuler u .roe (fromRad u (atan2 (R 1 0) (R 0 0))) (fromRad u 0) (fromRad u 0) = R) ∧
    (R 2 2 = -1 → ofEuler u .roe (fromRad u (atan2 (-R 1 0) (-R 0 0))) (fromRad u Real.pi) (fromRad u 0) = R) := by
  obtain ⟨r00, r11, r22, r01, r02, r12, c00, c11, c22, c01, c02, c12, k00, k01, k02, k10, k11, k12, k20, k21, k22⟩ := h.facts
  have h20 := mul_self_nonneg (R 2 0); have h21 := mul_self_nonneg (R 2 1)
  have h02 := mul_self_nonneg (R 0 2); have h12 := mul_self_nonneg (R 1 2)
  constructor
  · intro e
    rw [e] at r22 c22 k00 k01 k10 k11
    have z20 : R 2 0 = 0 := mul_self_eq_zero.1 (by linarith)
    have z21 : R 2 1 = 0 := mul_self_eq_zero.1 (by linarith)
    have z02 : R 0 2 = 0 := mul_self_eq_zero.1 (by linarith)
    have z12 : R 1 2 = 0 := mul_self_eq_zero.1 (by linarith)
    rw [z20] at c00
    obtain ⟨a1, a2⟩ := atan2_spec (x := R 0 0) (y := R 1 0) one_pos (by linarith)
    refine roe_entries u (by rw [rad_fromRad, a1]) (by rw [rad_fromRad, a2]) (by rw [rad_zero, Real.cos_zero]) (by rw [rad_zero, Real.sin_zero])
      (by rw [rad_zero, Real.cos_zero]) (by rw [rad_zero, Real.sin_zero]) ?_ ?_ ?_ ?_ ?_ ?_ ?_ ?_ ?_ <;> grind
  · intro e
    rw [e] at r22 c22 k00 k01 k10 k11
    have z20 : R 2 0 = 0 := mul_self_eq_zero.1 (by linarith)
    have z21 : R 2 1 = 0 := mul_self_eq_zero.1 (by linarith)
    have z02 : R 0 2 = 0 := mul_self_eq_zero.1 (by linarith)
    have z12 : R 1 2 = 0 := mul_self_eq_zero.1 (by linarith)
    rw [z20] at c00
    obtain ⟨a1, a2⟩ := atan2_spec (x := -R 0 0) (y := -R 1 0) one_pos (by linarith)
    refine roe_entries u (by rw [rad_fromRad, a1]) (by rw [rad_fromRad, a2]) (by rw [rad_fromRad, Real.cos_pi]) (by rw [rad_fromRad, Real.sin_pi])
      (by rw [rad_zero, Real.cos_zero]) (by rw [rad_zero, Real.sin_zero]) ?_ ?_ ?_ ?_ ?_ ?_ ?_ ?_ ?_ <;> grind

theorem ypr_gimbal {R : M 3} (h : IsRot R) (u : AngleUnit) :
    (-R 0 2 = 1 → ofEuler u .ypr (fromRad u (atan2 (R 2 1) (R 2 0))) (fromRad u (Real.pi / 2)) (fromRad u 0) = R) ∧
    (-R 0 2 = -1 → ofEuler u .ypr (fromRad u (atan2 (-R 2 1) (-R 2 0))) (fromRad u (-(Real.pi / 2))) (fromRad u 0) = R) := by
  obtain ⟨r00, r11, r22, r01, r02, r12, c00, c11, c22, c01, c02, c12, k00, k01, k02, k10, k11, k12, k20, k21, k22⟩ := h.facts
  have h00 := mul_self_nonneg (R 0 0); have h01 := mul_self_nonneg (R 0 1)
  have h22 := mul_self_nonneg (R 2 2); have h12 := mul_self_nonneg (R 1 2)
  constructor
  · intro e
    have e' : R 0 2 = -1 := by linarith
    rw [e'] at r00 c22 k20 k21 k10 k11
    have z00 : R 0 0 = 0 := mul_self_eq_zero.1 (by linarith)
    have z01 : R 0 1 = 0 := mul_self_eq_zero.1 (by linarith)
    have z22 : R 2 2 = 0 := mul_self_eq_zero.1 (by linarith)
    have z12 : R 1 2 = 0 := mul_self_eq_zero.1 (by linarith)
    rw [z22] at r22
    obtain ⟨a1, a2⟩ := atan2_spec (x := R 2 0) (y := R 2 1) one_pos (by linarith)
    refine ypr_entries u (by rw [rad_fromRad, a1]) (by rw [rad_fromRad, a2]) (by rw [rad_fromRad, Real.cos_pi_div_two]) (by rw [rad_fromRad, Real.sin_pi_div_two])
      (by rw [rad_zero, Real.cos_zero]) (by rw [rad_zero, Real.sin_zero]) ?_ ?_ ?_ ?_ ?_ ?_ ?_ ?_ ?_ <;> grind
  · intro e
    have e' : R 0 2 = 1 := by linarith
    rw [e'] at r00 c22 k20 k21 k10 k11
    have z00 : R 0 0 = 0 := mul_self_eq_zero.1 (by linarith)
    have z01 : R 0 1 = 0 := mul_self_eq_zero.1 (by linarith)
    have z22 : R 2 2 = 0 := mul_self_eq_zero.1 (by linarith)
    have z12 : R 1 2 = 0 := mul_self_eq_zero.1 (by linarith)
    rw [z22] at r22
    obtain ⟨a1, a2⟩ := atan2_spec (x := -R 2 0) (y := -R 2 1) one_pos (by linarith)
    refine ypr_entries u (by rw [rad_fromRad, a1]) (by rw [rad_fromRad, a2]) (by rw [rad_fromRad, Real.cos_neg, Real.cos_pi_div_two])
      (by rw [rad_fromRad, Real.sin_neg, Real.sin_pi_div_two])
      (by rw [rad_zero, Real.cos_zero]) (by rw [rad_zero, Real.sin_zero]) ?_ ?_ ?_ ?_ ?_ ?_ ?_ ?_ ?_ <;> grind

end Verif.Rotation
