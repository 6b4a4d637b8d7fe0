import Verif.Proof.RotationVec
import Mathlib.LinearAlgebra.Matrix.Trace

/-!
Properties of `include/zensim/math/Rotation.hpp`.
-/
namespace Verif.Rotation
open Matrix

/-! ## Axis and angle -/

/-- The matrix made from an axis and an angle is a rotation, leaves the axis alone, and its trace tells the angle. -/
theorem axis_rotation (u : AngleUnit) {p : V 3} (hp : p ≠ 0) (a : ℝ) :
    IsRot (ofAxis u p a) ∧ ofAxis u p a *ᵥ p = p ∧ (ofAxis u p a).trace = 1 + 2 * Real.cos (toRad u a) := by
  have hn := nsq3_unit hp
  refine ⟨?_, ?_, ?_⟩
  · rw [ofAxis_quat u hp]; exact ofQuat_isRot (nsq4_axis hn _)
  · have hs0 := Real.sqrt_pos.2 (nsq3_pos hp)
    have hwu : ∀ i, p i = Real.sqrt (nsq3 p) * unit3 p i := by
      intro i; unfold unit3; field_simp
    rw [ofAxis_apply_aux]
    generalize Real.sqrt (nsq3 p) = A at *
    generalize unit3 p = q at *
    unfold nsq3 at hn
    apply v3_ext <;> simp [cross, dot3, hwu] <;> grind
  · unfold ofAxis
    generalize unit3 p = q at *
    unfold nsq3 at hn
    simp [Matrix.trace, Fin.sum_univ_three]
    grind

/-- Vectors at right angles to the axis turn by the angle, by the right hand rule. -/
theorem axis_turns (u : AngleUnit) (p : V 3) (a : ℝ) {v : V 3} (hv : dot3 p v = 0) :
    ofAxis u p a *ᵥ v = fun i => Real.cos (toRad u a) * v i + Real.sin (toRad u a) * cross (unit3 p) v i := by
  have : dot3 (unit3 p) v = 0 := by
    have : dot3 (unit3 p) v = dot3 p v / Real.sqrt (nsq3 p) := by unfold dot3 unit3; ring
    rw [this, hv, zero_div]
  rw [ofAxis_apply_aux, this]
  ext i; ring

/-- Turns about one axis add up. -/
theorem axis_add (u : AngleUnit) {p : V 3} (hp : p ≠ 0) (a b : ℝ) : ofAxis u p a * ofAxis u p b = ofAxis u p (a + b) := by
  have hn := nsq3_unit hp
  have hr : toRad u (a + b) / 2 = toRad u a / 2 + toRad u b / 2 := by cases u <;> simp only [toRad] <;> ring
  rw [ofAxis_quat u hp, ofAxis_quat u hp, ofAxis_quat u hp, hr, ← ofQuat_mul (nsq4_axis hn _) (nsq4_axis hn _), Real.sin_add, Real.cos_add]
  generalize unit3 p = q at *
  unfold nsq3 at hn
  congr 1
  ext i
  fin_cases i <;> simp [quatMul] <;> grind

/-- Axis and angle of a rotation make the rotation again: away from the turns by 0 and π for every square root that is positive where it is used, at
these two turns themselves for the exact root.  Missing: turns closer than `eps` to 0 and π, see `axis_near_violated`. -/
theorem axis_roundtrip_partial {eps : ℝ} (h0 : 0 ≤ eps) (h1 : eps ≤ 1) (u : AngleUnit) {R : M 3} (h : IsRot R) :
    (∀ sq : ℝ → ℝ, (∀ x, eps < x ∨ 0 < x ∧ eps = 0 → 0 < sq x) → ¬ NearZero eps (0.5 * (R.trace - 1) - 1) → ¬ NearZero eps (0.5 * (R.trace - 1) + 1) →
      ofAxis u (extractAxis sq eps u R).1 (extractAxis sq eps u R).2 = R) ∧
    (∀ sq : ℝ → ℝ, R.trace = 3 → ofAxis u (extractAxis sq eps u R).1 (extractAxis sq eps u R).2 = R) ∧
    (R.trace = -1 → (NearZero eps (Real.sqrt ((R 0 0 + 1) * 0.5)) → R 0 0 = -1) →
      ofAxis u (extractAxis Real.sqrt eps u R).1 (extractAxis Real.sqrt eps u R).2 = R) := by
  have ht : R.trace = R 0 0 + R 1 1 + R 2 2 := by simp [Matrix.trace, Fin.sum_univ_three]
  rw [ht]
  refine ⟨fun sq hsq n1 n2 => extractAxis_generic_aux sq u h h0 n1 n2 (hsq _ ?_), fun sq e => extractAxis_one_aux sq u h h0 e,
    fun e hn => extractAxis_half_aux u h h0 (by linarith) e hn⟩
  obtain ⟨lo, hi⟩ := cos_range h.facts
  generalize 0.5 * (R 0 0 + R 1 1 + R 2 2 - 1) = c at *
  have g1 : eps < 1 - c := by
    by_contra hh; exact n1 ⟨by linarith, by linarith⟩
  have g2 : eps < 1 + c := by
    by_contra hh; exact n2 ⟨by linarith, by linarith⟩
  rcases h0.lt_or_eq with hp | hp
  · left
    by_cases hc : 0 ≤ c <;> nlinarith
  · right; exact ⟨by nlinarith, hp.symm⟩

/-- Axis and angle are found again when the angle is between 0 and π and not within `eps` of the ends. -/
theorem axis_found {eps : ℝ} (u : AngleUnit) {p : V 3} (hp : p ≠ 0) {a : ℝ} (ha0 : 0 < toRad u a) (ha1 : toRad u a < Real.pi)
    (n1 : ¬ NearZero eps (Real.cos (toRad u a) - 1)) (n2 : ¬ NearZero eps (Real.cos (toRad u a) + 1)) :
    extractAxis Real.sqrt eps u (ofAxis u p a) = (unit3 p, a) := by
  have hs := Real.sin_pos_of_pos_of_lt_pi ha0 ha1
  have hn := nsq3_unit hp
  have hc : 0.5 * (ofAxis u p a 0 0 + ofAxis u p a 1 1 + ofAxis u p a 2 2 - 1) = Real.cos (toRad u a) := by
    have := (axis_rotation u hp a).2.2
    simp only [Matrix.trace, Fin.sum_univ_three, Matrix.diag_apply] at this
    rw [this]; ring
  have hq : Real.sqrt (1 - Real.cos (toRad u a) * Real.cos (toRad u a)) = Real.sin (toRad u a) := by
    rw [show 1 - Real.cos (toRad u a) * Real.cos (toRad u a) = Real.sin (toRad u a) * Real.sin (toRad u a) by
      linear_combination -(Real.sin_sq_add_cos_sq (toRad u a))]
    exact Real.sqrt_mul_self hs.le
  unfold extractAxis
  simp only [hc, if_neg n1, if_neg n2, hq, Real.arccos_cos ha0.le ha1.le, rad_inv]
  congr 1
  unfold ofAxis
  generalize unit3 p = q at *
  generalize Real.sin (toRad u a) = s at *
  have := hs.ne'
  apply v3_ext <;> simp <;> field_simp <;> ring

/-- Turns that are small but not zero come back as no turn at all, whatever the positive constant. -/
theorem axis_near_violated {eps : ℝ} (h0 : 0 < eps) (h1 : eps < 2) (sq : ℝ → ℝ) (u : AngleUnit) :
    ∃ R : M 3, IsRot R ∧ ofAxis u (extractAxis sq eps u R).1 (extractAxis sq eps u R).2 ≠ R := by
  have hp : (![0, 0, 1] : V 3) ≠ 0 := v3_ne (by simp)
  have hc : Real.cos (Real.arccos (1 - eps)) = 1 - eps := Real.cos_arccos (by linarith) (by linarith)
  obtain ⟨r1, r2, r3⟩ := axis_rotation .radian hp (Real.arccos (1 - eps))
  refine ⟨_, r1, ?_⟩
  simp only [toRad, hc, Matrix.trace, Fin.sum_univ_three, Matrix.diag_apply] at r3
  generalize ofAxis .radian ![0, 0, 1] (Real.arccos (1 - eps)) = R at *
  have n1 : NearZero eps (0.5 * (R 0 0 + R 1 1 + R 2 2 - 1) - 1) := by
    rw [r3]; constructor <;> linarith
  unfold extractAxis
  simp only [if_pos n1]
  have hz : toRad u 0 = 0 := by cases u <;> simp [toRad]
  unfold ofAxis
  simp only [hz, Real.cos_zero, Real.sin_zero, sub_self, zero_smul, one_smul, add_zero, sub_zero]
  rintro rfl
  simp at r3
  linarith

/-! ## Three angles -/

/-- `roe` turns about z, then y, then z; `ypr` is the inverse of the turns about x, then y, then z. -/
theorem euler_product (u : AngleUnit) (psi theta phi : ℝ) :
    ofEuler u .roe psi theta phi = rotZ (toRad u psi) * rotY (toRad u theta) * rotZ (toRad u phi) ∧
    ofEuler u .ypr psi theta phi = (rotZ (toRad u psi) * rotY (toRad u theta) * rotX (toRad u phi)).transpose := by
  constructor <;> apply m_ext <;> simp [ofEuler, rotX, rotY, rotZ, mul3] <;> ring

/-- Both are rotations. -/
theorem euler_rotation (u : AngleUnit) (c : Convention) (psi theta phi : ℝ) : IsRot (ofEuler u c psi theta phi) := by
  have h1 := Real.sin_sq_add_cos_sq (toRad u psi)
  have h2 := Real.sin_sq_add_cos_sq (toRad u theta)
  have h3 := Real.sin_sq_add_cos_sq (toRad u phi)
  cases c <;> unfold ofEuler <;>
    generalize Real.sin (toRad u psi) = s1 at * <;> generalize Real.cos (toRad u psi) = c1 at * <;>
    generalize Real.sin (toRad u theta) = s2 at * <;> generalize Real.cos (toRad u theta) = c2 at * <;>
    generalize Real.sin (toRad u phi) = s3 at * <;> generalize Real.cos (toRad u phi) = c3 at * <;> constructor
  · apply m_ext <;> simp [mul3] <;> grind
  · rw [Matrix.det_fin_three]; simp; grind
  · apply m_ext <;> simp [mul3] <;> grind
  · rw [Matrix.det_fin_three]; simp; grind

/-- The entry that decides between the cases of `extractAngles`. -/
def lockEntry : Convention → M 3 → ℝ
  | .roe, R => R 2 2
  | .ypr, R => -R 0 2

/-- The angles of a rotation make the rotation again, when the entry that shows the lock is 1, -1 or farther than `eps` from both.
Missing: closer than `eps` but not equal, see `euler_near_violated`. -/
theorem euler_roundtrip_partial {eps : ℝ} (h0 : 0 ≤ eps) (h2 : eps < 2) (u : AngleUnit) (c : Convention) {R : M 3} (h : IsRot R)
    (hl : lockEntry c R = 1 ∨ lockEntry c R = -1 ∨ eps < 1 - lockEntry c R ∧ eps < 1 + lockEntry c R) :
    ofEuler u c (extractAngles eps u c R).1 (extractAngles eps u c R).2.1 (extractAngles eps u c R).2.2 = R := by
  have yes : ∀ x : ℝ, x = 0 → NearZero eps x := by rintro x rfl; constructor <;> linarith
  have no1 : ∀ x : ℝ, eps < 1 - x → ¬ NearZero eps (x - 1) := by rintro x hx ⟨g, _⟩; linarith
  have no2 : ∀ x : ℝ, eps < 1 + x → ¬ NearZero eps (x + 1) := by rintro x hx ⟨_, g⟩; linarith
  cases c <;> simp only [lockEntry] at hl <;> unfold extractAngles <;> rcases hl with e | e | ⟨e1, e2⟩
  · simp only [if_pos (yes (R 2 2 - 1) (by linarith))]; exact (roe_gimbal h u).1 e
  · simp only [if_neg (no1 (R 2 2) (by linarith)), if_pos (yes (R 2 2 + 1) (by linarith))]; exact (roe_gimbal h u).2 e
  · simp only [if_neg (no1 _ e1), if_neg (no2 _ e2)]; exact roe_generic h u (by linarith) (by linarith)
  · simp only [if_pos (yes (-R 0 2 - 1) (by linarith))]; exact (ypr_gimbal h u).1 e
  · simp only [if_neg (no1 (-R 0 2) (by linarith)), if_pos (yes (-R 0 2 + 1) (by linarith))]; exact (ypr_gimbal h u).2 e
  · simp only [if_neg (no1 _ e1), if_neg (no2 _ e2)]; exact ypr_generic h u (by linarith) (by linarith)

/-- Angles in the usual ranges are found again away from the lock. -/
theorem euler_found {eps : ℝ} (u : AngleUnit) {psi theta phi : ℝ} (p1 : -Real.pi < toRad u psi) (p2 : toRad u psi ≤ Real.pi)
    (f1 : -Real.pi < toRad u phi) (f2 : toRad u phi ≤ Real.pi) :
    (0 < toRad u theta → toRad u theta < Real.pi → eps < 1 - Real.cos (toRad u theta) → eps < 1 + Real.cos (toRad u theta) →
      extractAngles eps u .roe (ofEuler u .roe psi theta phi) = (psi, theta, phi)) ∧
    (-(Real.pi / 2) < toRad u theta → toRad u theta < Real.pi / 2 → eps < 1 - Real.sin (toRad u theta) → eps < 1 + Real.sin (toRad u theta) →
      extractAngles eps u .ypr (ofEuler u .ypr psi theta phi) = (psi, theta, phi)) := by
  have no1 : ∀ x : ℝ, eps < 1 - x → ¬ NearZero eps (x - 1) := by rintro x hx ⟨g, _⟩; linarith
  have no2 : ∀ x : ℝ, eps < 1 + x → ¬ NearZero eps (x + 1) := by rintro x hx ⟨_, g⟩; linarith
  constructor
  · intro t1 t2 e1 e2
    have hs := Real.sin_pos_of_pos_of_lt_pi t1 t2
    have a1 := atan2_found hs p1 p2
    have a2 := atan2_found hs f1 f2
    unfold extractAngles ofEuler
    simp [if_neg (no1 _ e1), if_neg (no2 _ e2), Real.arccos_cos t1.le t2.le, rad_inv, a2, mul_comm (Real.sin (toRad u psi)), mul_comm (Real.cos (toRad u psi)), a1]
  · intro t1 t2 e1 e2
    have hs := Real.cos_pos_of_mem_Ioo ⟨t1, t2⟩
    have a1 := atan2_found hs p1 p2
    have a2 := atan2_found hs f1 f2
    unfold extractAngles ofEuler
    simp [if_neg (no1 _ e1), if_neg (no2 _ e2), Real.arcsin_sin t1.le t2.le, rad_inv, a1, mul_comm (Real.sin (toRad u phi)), mul_comm (Real.cos (toRad u phi)), a2]

/-- Close to the lock the middle angle is replaced by the lock's, and another rotation comes back. -/
theorem euler_near_violated {eps : ℝ} (h0 : 0 < eps) (h2 : eps < 2) (u : AngleUnit) (c : Convention) :
    ∃ R : M 3, IsRot R ∧ ofEuler u c (extractAngles eps u c R).1 (extractAngles eps u c R).2.1 (extractAngles eps u c R).2.2 ≠ R := by
  have near : ∀ x : ℝ, x = 1 - eps → NearZero eps (x - 1) := by rintro x rfl; constructor <;> linarith
  cases c
  · refine ⟨_, euler_rotation .radian .roe 0 (Real.arccos (1 - eps)) 0, ?_⟩
    have e : ofEuler .radian .roe 0 (Real.arccos (1 - eps)) 0 2 2 = 1 - eps := by
      simp [ofEuler, toRad, Real.cos_arccos (x := 1 - eps) (by linarith) (by linarith)]
    generalize ofEuler .radian .roe 0 (Real.arccos (1 - eps)) 0 = R at *
    unfold extractAngles
    simp only [if_pos (near _ e)]
    intro hh
    have := congrFun (congrFun hh 2) 2
    rw [e] at this
    simp [ofEuler, rad_fromRad] at this
    linarith
  · refine ⟨_, euler_rotation .radian .ypr 0 (Real.arcsin (1 - eps)) 0, ?_⟩
    have e : -ofEuler .radian .ypr 0 (Real.arcsin (1 - eps)) 0 0 2 = 1 - eps := by
      simp [ofEuler, toRad, Real.sin_arcsin (x := 1 - eps) (by linarith) (by linarith)]
    generalize ofEuler .radian .ypr 0 (Real.arcsin (1 - eps)) 0 = R at *
    unfold extractAngles
    simp only [if_pos (near _ e)]
    intro hh
    have := congrArg Neg.neg (congrFun (congrFun hh 0) 2)
    rw [e] at this
    simp [ofEuler, rad_fromRad] at this
    linarith

/-! ## Quaternions -/

/-- The matrix of a unit quaternion is a rotation. -/
theorem quat_rotation {q : V 4} (h : nsq4 q = 1) : IsRot (ofQuat q) := ofQuat_isRot h

/-- Products of quaternions are products of rotations; the length of a product is the product of the lengths. -/
theorem quat_product (p q : V 4) : nsq4 (quatMul p q) = nsq4 p * nsq4 q ∧ (nsq4 p = 1 → nsq4 q = 1 → ofQuat (quatMul p q) = ofQuat p * ofQuat q) :=
  ⟨nsq4_mul p q, fun hp hq => ofQuat_mul hp hq⟩

/-- The product with the conjugate undoes the first rotation. -/
theorem quat_conjugate {p q : V 4} (hp : nsq4 p = 1) (hq : nsq4 q = 1) : ofQuat (quatConjMul p q) = (ofQuat p).transpose * ofQuat q ∧
    ofQuat (quatConjMul p (quatMul p q)) = ofQuat q := by
  have hc : nsq4 ![-p 0, -p 1, -p 2, p 3] = 1 := by rw [← hp]; simp [nsq4]
  have key : ∀ r : V 4, nsq4 r = 1 → ofQuat (quatConjMul p r) = (ofQuat p).transpose * ofQuat r := by
    intro r hr; rw [quatConjMul_eq, ofQuat_mul hc hr, ofQuat_conj]
  refine ⟨key q hq, ?_⟩
  rw [key _ (by rw [nsq4_mul, hp, hq, one_mul]), ofQuat_mul hp hq, ← Matrix.mul_assoc, mul_eq_one_comm.1 (ofQuat_isRot hp).1, Matrix.one_mul]

/-- The quaternion of half the angle gives the same matrix as axis and angle. -/
theorem quat_axis {p : V 3} (hp : p ≠ 0) (a : ℝ) :
    ofQuat ![Real.sin (a / 2) * unit3 p 0, Real.sin (a / 2) * unit3 p 1, Real.sin (a / 2) * unit3 p 2, Real.cos (a / 2)] = ofAxis .radian p a :=
  (ofAxis_quat .radian hp a).symm

/-! ## From one vector to another -/

/-- The rotation made from two vectors takes the direction of the first to that of the second, opposite directions included. -/
theorem between_three {a b : V 3} (ha : a ≠ 0) (hb : b ≠ 0) : IsRot (between3 a b) ∧ between3 a b *ᵥ unit3 a = unit3 b := between3_aux ha hb

theorem between_two {a b : V 2} (ha : a ≠ 0) (hb : b ≠ 0) : IsRot (between2 a b) ∧ between2 a b *ᵥ unit2 a = unit2 b := between2_aux ha hb

/-! ## Two dimensions, and velocities -/

/-- The matrix of an angle is a rotation, and angles add up. -/
theorem angle_rotation (a b : ℝ) : IsRot (ofAngle a) ∧ ofAngle a * ofAngle b = ofAngle (a + b) := by
  have h := Real.sin_sq_add_cos_sq a
  refine ⟨⟨?_, ?_⟩, ?_⟩
  · apply m2_ext <;> simp [ofAngle, Matrix.mul_apply, Fin.sum_univ_two] <;> grind
  · rw [Matrix.det_fin_two]; simp [ofAngle]; grind
  · apply m2_ext <;> simp [ofAngle, Matrix.mul_apply, Fin.sum_univ_two, Real.sin_add, Real.cos_add] <;> ring

/-- The product with the angular velocity is the velocity of a point turning about the axis. -/
theorem velocity_three {w : V 3} (hw : w ≠ 0) (v : V 3) (t : ℝ) :
    HasDerivAt (fun t => ofAxis .radian w (Real.sqrt (nsq3 w) * t) *ᵥ v) (angular3 w (ofAxis .radian w (Real.sqrt (nsq3 w) * t) *ᵥ v)) t :=
  ofAxis_deriv_aux hw v t

theorem velocity_two (w : ℝ) (v : V 2) (t : ℝ) : HasDerivAt (fun t => ofAngle (w * t) *ᵥ v) (angular2 w (ofAngle (w * t) *ᵥ v)) t :=
  ofAngle_deriv_aux w v t

/-! ## The hypotheses are met -/

/-- A quarter turn about z, with a square root that is only positive. -/
example : ofAxis .degree (extractAxis (fun _ => 1) 0.001 .degree (rotZ (Real.pi / 2))).1 (extractAxis (fun _ => 1) 0.001 .degree (rotZ (Real.pi / 2))).2 =
    rotZ (Real.pi / 2) := by
  have h : IsRot (rotZ (Real.pi / 2)) := by
    constructor
    · apply m_ext <;> simp [rotZ, mul3]
    · rw [Matrix.det_fin_three]; simp [rotZ]
  have ht : (rotZ (Real.pi / 2)).trace = 1 := by simp [rotZ, Matrix.trace, Fin.sum_univ_three]
  refine (axis_roundtrip_partial (by norm_num) (by norm_num) .degree h).1 _ (fun _ _ => one_pos) ?_ ?_
  · rw [ht]; rintro ⟨h1, _⟩; norm_num at h1
  · rw [ht]; rintro ⟨_, h1⟩; norm_num at h1

/-- Opposite vectors. -/
example : between3 ![0, 0, 2] ![0, 0, -3] *ᵥ unit3 ![0, 0, 2] = unit3 ![0, 0, -3] :=
  (between_three (v3_ne (by simp)) (v3_ne (by simp))).2

/-- A unit quaternion. -/
example : IsRot (ofQuat ![0.1, 0.5, 0.7, 0.5]) :=
  quat_rotation (by simp only [nsq4, Matrix.cons_val_zero, Matrix.cons_val_one, Matrix.cons_val]; norm_num)

end Verif.Rotation
