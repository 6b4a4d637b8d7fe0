import Verif.Spec.Rotation
import Mathlib.LinearAlgebra.Matrix.Adjugate
import Mathlib.Tactic.LinearCombination
import Mathlib.Tactic.FinCases
import Mathlib.Tactic.FieldSimp
import Mathlib.Tactic.Linarith
import Mathlib.Tactic.Positivity

namespace Verif.Rotation

theorem m_ext {A B : M 3} (h00 : A 0 0 = B 0 0) (h01 : A 0 1 = B 0 1) (h02 : A 0 2 = B 0 2) (h10 : A 1 0 = B 1 0) (h11 : A 1 1 = B 1 1) (h12 : A 1 2 = B 1 2)
    (h20 : A 2 0 = B 2 0) (h21 : A 2 1 = B 2 1) (h22 : A 2 2 = B 2 2) : A = B := by
  ext i j
  fin_cases i <;> fin_cases j <;> assumption

theorem mul3 (A B : M 3) (i j : Fin 3) : (A * B) i j = A i 0 * B 0 j + A i 1 * B 1 j + A i 2 * B 2 j := by
  rw [Matrix.mul_apply, Fin.sum_univ_three]

theorem ofQuat_isRot {q : V 4} (h : nsq4 q = 1) : IsRot (ofQuat q) := by
  unfold nsq4 at h
  constructor
  · apply m_ext <;> simp [ofQuat, mul3] <;> grind
  · rw [Matrix.det_fin_three]
    simp [ofQuat]
    grind

theorem ofQuat_mul {p q : V 4} (hp : nsq4 p = 1) (hq : nsq4 q = 1) : ofQuat (quatMul p q) = ofQuat p * ofQuat q := by
  unfold nsq4 at hp hq
  apply m_ext <;> simp [ofQuat, mul3, quatMul] <;> grind

theorem quatConjMul_eq (p q : V 4) : quatConjMul p q = quatMul ![-p 0, -p 1, -p 2, p 3] q := rfl

theorem ofQuat_conj (p : V 4) : ofQuat ![-p 0, -p 1, -p 2, p 3] = (ofQuat p).transpose := by
  apply m_ext <;> simp [ofQuat] <;> ring

theorem nsq4_mul (p q : V 4) : nsq4 (quatMul p q) = nsq4 p * nsq4 q := by
  simp [nsq4, quatMul]; ring

/-- The relations between the entries of a rotation. -/
structure Facts (R : M 3) : Prop where
  r00 : R 0 0 * R 0 0 + R 0 1 * R 0 1 + R 0 2 * R 0 2 = 1
  r11 : R 1 0 * R 1 0 + R 1 1 * R 1 1 + R 1 2 * R 1 2 = 1
  r22 : R 2 0 * R 2 0 + R 2 1 * R 2 1 + R 2 2 * R 2 2 = 1
  r01 : R 0 0 * R 1 0 + R 0 1 * R 1 1 + R 0 2 * R 1 2 = 0
  r02 : R 0 0 * R 2 0 + R 0 1 * R 2 1 + R 0 2 * R 2 2 = 0
  r12 : R 1 0 * R 2 0 + R 1 1 * R 2 1 + R 1 2 * R 2 2 = 0
  c00 : R 0 0 * R 0 0 + R 1 0 * R 1 0 + R 2 0 * R 2 0 = 1
  c11 : R 0 1 * R 0 1 + R 1 1 * R 1 1 + R 2 1 * R 2 1 = 1
  c22 : R 0 2 * R 0 2 + R 1 2 * R 1 2 + R 2 2 * R 2 2 = 1
  c01 : R 0 0 * R 0 1 + R 1 0 * R 1 1 + R 2 0 * R 2 1 = 0
  c02 : R 0 0 * R 0 2 + R 1 0 * R 1 2 + R 2 0 * R 2 2 = 0
  c12 : R 0 1 * R 0 2 + R 1 1 * R 1 2 + R 2 1 * R 2 2 = 0
  k00 : R 1 1 * R 2 2 - R 1 2 * R 2 1 = R 0 0
  k01 : R 1 2 * R 2 0 - R 1 0 * R 2 2 = R 0 1
  k02 : R 1 0 * R 2 1 - R 1 1 * R 2 0 = R 0 2
  k10 : R 0 2 * R 2 1 - R 0 1 * R 2 2 = R 1 0
  k11 : R 0 0 * R 2 2 - R 0 2 * R 2 0 = R 1 1
  k12 : R 0 1 * R 2 0 - R 0 0 * R 2 1 = R 1 2
  k20 : R 0 1 * R 1 2 - R 0 2 * R 1 1 = R 2 0
  k21 : R 0 2 * R 1 0 - R 0 0 * R 1 2 = R 2 1
  k22 : R 0 0 * R 1 1 - R 0 1 * R 1 0 = R 2 2

theorem IsRot.facts {R : M 3} (h : IsRot R) : Facts R := by
  obtain ⟨h1, h2⟩ := h
  have h3 : R.transpose * R = 1 := mul_eq_one_comm.1 h1
  have e1 : ∀ i j, (R * R.transpose) i j = (1 : M 3) i j := fun i j => by rw [h1]
  have e3 : ∀ i j, (R.transpose * R) i j = (1 : M 3) i j := fun i j => by rw [h3]
  have ha : R.adjugate = R.transpose := by
    have : R * R.adjugate = 1 := by rw [Matrix.mul_adjugate, h2, one_smul]
    calc R.adjugate = R.transpose * R * R.adjugate := by rw [h3, one_mul]
      _ = R.transpose := by rw [Matrix.mul_assoc, this, mul_one]
  have ea : ∀ i j, R.adjugate i j = R j i := fun i j => by rw [ha]; rfl
  simp only [mul3, Matrix.transpose_apply] at e1 e3
  rw [Matrix.adjugate_fin_three] at ea
  have a00 := ea 0 0; have a01 := ea 0 1; have a02 := ea 0 2
  have a10 := ea 1 0; have a11 := ea 1 1; have a12 := ea 1 2
  have a20 := ea 2 0; have a21 := ea 2 1; have a22 := ea 2 2
  simp at a00 a01 a02 a10 a11 a12 a20 a21 a22
  have f00 := e1 0 0; have f01 := e1 0 1; have f02 := e1 0 2
  have f11 := e1 1 1; have f12 := e1 1 2; have f22 := e1 2 2
  have g00 := e3 0 0; have g01 := e3 0 1; have g02 := e3 0 2
  have g11 := e3 1 1; have g12 := e3 1 2; have g22 := e3 2 2
  simp at f00 f01 f02 f11 f12 f22 g00 g01 g02 g11 g12 g22
  constructor <;> linarith

/-- The vector of the antisymmetric part and the cosine of the angle. -/
theorem Facts.axis {R : M 3} (f : Facts R) : let c := 0.5 * (R 0 0 + R 1 1 + R 2 2 - 1)
    let v0 := (R 2 1 - R 1 2) * 0.5
    let v1 := (R 0 2 - R 2 0) * 0.5
    let v2 := (R 1 0 - R 0 1) * 0.5
    (1 + c) * (R 0 0 - c) = v0 * v0 ∧ (1 + c) * (R 1 1 - c) = v1 * v1 ∧ (1 + c) * (R 2 2 - c) = v2 * v2 ∧
    (1 + c) * ((R 0 1 + R 1 0) * 0.5) = v0 * v1 ∧ (1 + c) * ((R 0 2 + R 2 0) * 0.5) = v0 * v2 ∧ (1 + c) * ((R 1 2 + R 2 1) * 0.5) = v1 * v2 ∧
    v0 * v0 + v1 * v1 + v2 * v2 = 1 - c * c := by
  obtain ⟨r00, r11, r22, r01, r02, r12, c00, c11, c22, c01, c02, c12, k00, k01, k02, k10, k11, k12, k20, k21, k22⟩ := f
  have e0 : (1 + 0.5 * (R 0 0 + R 1 1 + R 2 2 - 1)) * (R 0 0 - 0.5 * (R 0 0 + R 1 1 + R 2 2 - 1)) = ((R 2 1 - R 1 2) * 0.5) * ((R 2 1 - R 1 2) * 0.5) := by
    linear_combination (-1 / 2) * k00 + (-1 / 4) * r11 + (-1 / 4) * r22 + (1 / 4) * c00
  have e1 : (1 + 0.5 * (R 0 0 + R 1 1 + R 2 2 - 1)) * (R 1 1 - 0.5 * (R 0 0 + R 1 1 + R 2 2 - 1)) = ((R 0 2 - R 2 0) * 0.5) * ((R 0 2 - R 2 0) * 0.5) := by
    linear_combination (-1 / 2) * k11 + (-1 / 4) * r00 + (-1 / 4) * r22 + (1 / 4) * c11
  have e2 : (1 + 0.5 * (R 0 0 + R 1 1 + R 2 2 - 1)) * (R 2 2 - 0.5 * (R 0 0 + R 1 1 + R 2 2 - 1)) = ((R 1 0 - R 0 1) * 0.5) * ((R 1 0 - R 0 1) * 0.5) := by
    linear_combination (-1 / 2) * k22 + (-1 / 4) * r00 + (-1 / 4) * r11 + (1 / 4) * c22
  refine ⟨e0, e1, e2, ?_, ?_, ?_, ?_⟩
  · linear_combination (1 / 4) * (r01 + c01 - k01 - k10)
  · linear_combination (1 / 4) * (r02 + c02 - k02 - k20)
  · linear_combination (1 / 4) * (r12 + c12 - k12 - k21)
  · linear_combination (-1) * e0 - e1 - e2

theorem atan2_spec {x y s : ℝ} (hs : 0 < s) (h : x * x + y * y = s * s) : Real.cos (atan2 y x) = x / s ∧ Real.sin (atan2 y x) = y / s := by
  have hn : ‖(⟨x, y⟩ : ℂ)‖ = s := by
    rw [Complex.norm_def, Complex.normSq_mk, h, Real.sqrt_mul_self hs.le]
  have hne : (⟨x, y⟩ : ℂ) ≠ 0 := by
    intro e; rw [e, norm_zero] at hn; exact hs.ne hn
  unfold atan2
  rw [Complex.cos_arg hne, Complex.sin_arg, hn]
  exact ⟨rfl, rfl⟩

theorem rad_fromRad (u : AngleUnit) (a : ℝ) : toRad u (fromRad u a) = a := by
  cases u
  · rfl
  · have := Real.pi_ne_zero
    simp only [toRad, fromRad]; field_simp

theorem nsq3_pos {a : V 3} (h : a ≠ 0) : 0 < nsq3 a := by
  unfold nsq3
  by_contra hc
  apply h
  have h0 := mul_self_nonneg (a 0); have h1 := mul_self_nonneg (a 1); have h2 := mul_self_nonneg (a 2)
  have e0 : a 0 = 0 := mul_self_eq_zero.1 (by linarith)
  have e1 : a 1 = 0 := mul_self_eq_zero.1 (by linarith)
  have e2 : a 2 = 0 := mul_self_eq_zero.1 (by linarith)
  ext i; fin_cases i <;> assumption

theorem nsq3_unit {a : V 3} (h : a ≠ 0) : nsq3 (unit3 a) = 1 := by
  have hp := nsq3_pos h
  have hs := Real.mul_self_sqrt hp.le
  have hs0 := Real.sqrt_pos.2 hp
  have : nsq3 (unit3 a) = nsq3 a / (Real.sqrt (nsq3 a) * Real.sqrt (nsq3 a)) := by
    unfold unit3
    generalize Real.sqrt (nsq3 a) = s at *
    unfold nsq3; field_simp
  rw [this, hs, div_self hp.ne']

theorem ofAxis_quat (u : AngleUnit) {p : V 3} (hp : p ≠ 0) (alpha : ℝ) : ofAxis u p alpha =
    ofQuat ![Real.sin (toRad u alpha / 2) * unit3 p 0, Real.sin (toRad u alpha / 2) * unit3 p 1, Real.sin (toRad u alpha / 2) * unit3 p 2, Real.cos (toRad u alpha / 2)] := by
  have hn := nsq3_unit hp
  unfold nsq3 at hn
  have hc : Real.cos (toRad u alpha) = 2 * Real.cos (toRad u alpha / 2) ^ 2 - 1 := by rw [← Real.cos_two_mul]; ring_nf
  have hs : Real.sin (toRad u alpha) = 2 * Real.sin (toRad u alpha / 2) * Real.cos (toRad u alpha / 2) := by rw [← Real.sin_two_mul]; ring_nf
  have h1 := Real.sin_sq_add_cos_sq (toRad u alpha / 2)
  unfold ofAxis
  simp only [hc, hs]
  generalize Real.sin (toRad u alpha / 2) = s at *
  generalize Real.cos (toRad u alpha / 2) = c at *
  generalize unit3 p = q at *
  apply m_ext <;> simp [ofQuat] <;> grind

theorem nsq4_axis {q : V 3} (h : nsq3 q = 1) (a : ℝ) : nsq4 ![Real.sin a * q 0, Real.sin a * q 1, Real.sin a * q 2, Real.cos a] = 1 := by
  have h1 := Real.sin_sq_add_cos_sq a
  unfold nsq3 at h
  simp [nsq4]
  grind

end Verif.Rotation
