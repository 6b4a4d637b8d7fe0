import Verif.Proof.RotationMore
import Mathlib.Analysis.Calculus.Deriv.Prod

/-!
Rotations between vectors, action on vectors, derivatives.
-/
namespace Verif.Rotation
open Matrix

theorem rad_inv (u : AngleUnit) (a : ℝ) : fromRad u (toRad u a) = a := by
  have := Real.pi_ne_zero
  cases u <;> simp only [toRad, fromRad]
  field_simp

theorem atan2_found {r a : ℝ} (hr : 0 < r) (h1 : -Real.pi < a) (h2 : a ≤ Real.pi) : atan2 (r * Real.sin a) (r * Real.cos a) = a := by
  have := Complex.arg_mul_cos_add_sin_mul_I hr ⟨h1, h2⟩
  have e : (⟨r * Real.cos a, r * Real.sin a⟩ : ℂ) = r * (Complex.cos a + Complex.sin a * Complex.I) := by
    apply Complex.ext <;> simp [← Complex.ofReal_cos, ← Complex.ofReal_sin]
  unfold atan2
  rw [e, this]

theorem mulVec3 (A : M 3) (v : V 3) (i : Fin 3) : (A *ᵥ v) i = A i 0 * v 0 + A i 1 * v 1 + A i 2 * v 2 := by
  rw [Matrix.mulVec, dotProduct, Fin.sum_univ_three]

theorem v3_ext {a b : V 3} (h0 : a 0 = b 0) (h1 : a 1 = b 1) (h2 : a 2 = b 2) : a = b := by
  ext i; fin_cases i <;> assumption

theorem v2_ext {a b : V 2} (h0 : a 0 = b 0) (h1 : a 1 = b 1) : a = b := by
  ext i; fin_cases i <;> assumption

theorem m2_ext {A B : M 2} (h00 : A 0 0 = B 0 0) (h01 : A 0 1 = B 0 1) (h10 : A 1 0 = B 1 0) (h11 : A 1 1 = B 1 1) : A = B := by
  ext i j
  fin_cases i <;> fin_cases j <;> assumption

/-- What the matrix of a quaternion does with a vector. -/
theorem ofQuat_apply (q : V 4) (a : V 3) : ofQuat q *ᵥ a = fun i => a i + 2 * q 3 * cross ![q 0, q 1, q 2] a i + 2 * cross ![q 0, q 1, q 2] (cross ![q 0, q 1, q 2] a) i := by
  apply v3_ext <;> rw [mulVec3] <;> simp [ofQuat, cross] <;> ring

/-- What a rotation about an axis does with a vector. -/
theorem ofAxis_apply_aux (u : AngleUnit) (p : V 3) (a : ℝ) (v : V 3) : ofAxis u p a *ᵥ v =
    fun i => Real.cos (toRad u a) * v i + (1 - Real.cos (toRad u a)) * dot3 (unit3 p) v * unit3 p i + Real.sin (toRad u a) * cross (unit3 p) v i := by
  unfold ofAxis dot3
  generalize unit3 p = q
  apply v3_ext <;> rw [mulVec3] <;> simp [cross] <;> ring

theorem v3_ne {a : V 3} (h : a 0 ≠ 0 ∨ a 1 ≠ 0 ∨ a 2 ≠ 0) : a ≠ 0 := by
  rintro rfl; simp at h

theorem orthogonal_spec {a : V 3} (h : a ≠ 0) : orthogonal a ≠ 0 ∧ dot3 (orthogonal a) a = 0 := by
  unfold orthogonal
  simp only
  split_ifs with h1 h2 h2
  · refine ⟨v3_ne (Or.inr (Or.inr ?_)), ?_⟩
    · have : a 1 ≠ 0 := abs_pos.1 (lt_of_le_of_lt (abs_nonneg _) h1)
      simpa [cross] using this
    · simp [cross, dot3]; ring
  · refine ⟨v3_ne (Or.inl ?_), ?_⟩
    · have : a 1 ≠ 0 := abs_pos.1 (lt_of_le_of_lt (abs_nonneg _) h1)
      simpa [cross] using this
    · simp [cross, dot3]; ring
  · refine ⟨v3_ne (Or.inl ?_), ?_⟩
    · have : a 2 ≠ 0 := abs_pos.1 (lt_of_le_of_lt (abs_nonneg _) h2)
      simpa [cross] using this
    · simp [cross, dot3]; ring
  · constructor
    · intro e
      have e0 := congrFun e 0
      have e1 := congrFun e 1
      simp [cross] at e0 e1
      rw [e0, abs_zero] at h2
      have e2 : a 2 = 0 := abs_eq_zero.1 (le_antisymm (not_lt.1 h2) (abs_nonneg _))
      exact h (v3_ext e1 e0 e2)
    · simp [cross, dot3]; ring

theorem between3_aux {a b : V 3} (ha : a ≠ 0) (hb : b ≠ 0) : IsRot (between3 a b) ∧ between3 a b *ᵥ unit3 a = unit3 b := by
  have pa := nsq3_pos ha
  have pb := nsq3_pos hb
  have sa := Real.mul_self_sqrt pa.le
  have sb := Real.mul_self_sqrt pb.le
  have sa0 := Real.sqrt_pos.2 pa
  have sb0 := Real.sqrt_pos.2 pb
  have hlag : nsq3 (cross a b) = nsq3 a * nsq3 b - dot3 a b * dot3 a b := by simp [nsq3, cross, dot3]; ring
  have hge : 0 ≤ nsq3 (cross a b) := by
    unfold nsq3; nlinarith [mul_self_nonneg (cross a b 0), mul_self_nonneg (cross a b 1), mul_self_nonneg (cross a b 2)]
  unfold between3
  simp only [Real.sqrt_mul pa.le]
  have hua : unit3 a = fun i => a i / Real.sqrt (nsq3 a) := rfl
  have hub : unit3 b = fun i => b i / Real.sqrt (nsq3 b) := rfl
  rw [hua, hub]
  generalize Real.sqrt (nsq3 a) = A at *
  generalize Real.sqrt (nsq3 b) = B at *
  have hk : 0 < A * B := mul_pos sa0 sb0
  have hAB : nsq3 a * nsq3 b = (A * B) * (A * B) := by rw [← sa, ← sb]; ring
  by_cases hd : dot3 a b / (A * B) = -1
  · rw [if_pos hd]
    have hd' : dot3 a b = -(A * B) := by
      rw [div_eq_iff hk.ne'] at hd; linarith
    obtain ⟨o1, o2⟩ := orthogonal_spec ha
    have ou := nsq3_unit o1
    have od : dot3 (unit3 (orthogonal a)) a = 0 := by
      have : dot3 (unit3 (orthogonal a)) a = dot3 (orthogonal a) a / Real.sqrt (nsq3 (orthogonal a)) := by unfold dot3 unit3; ring
      rw [this, o2, zero_div]
    generalize unit3 (orthogonal a) = c at *
    refine ⟨ofQuat_isRot (by unfold nsq4 nsq3 at *; simp; linarith), ?_⟩
    -- b is the opposite direction
    have hz : nsq3 (fun i => B * a i + A * b i) = 0 := by
      have : nsq3 (fun i => B * a i + A * b i) = B * B * nsq3 a + 2 * (A * B) * dot3 a b + A * A * nsq3 b := by unfold nsq3 dot3; ring
      rw [this, hd', ← sa, ← sb]; ring
    have hb' : ∀ i, b i / B = -(a i / A) := by
      intro i
      have : (fun i => B * a i + A * b i) = (0 : V 3) := by
        by_contra hne; exact (nsq3_pos hne).ne' hz
      have := congrFun this i
      simp only [Pi.zero_apply] at this
      field_simp
      linarith
    rw [ofQuat_apply]
    unfold dot3 at od
    unfold nsq3 at ou
    apply v3_ext <;> simp only [hb'] <;> simp [cross] <;> field_simp <;> grind
  · rw [if_neg hd]
    have hw : 0 < dot3 a b + A * B := by
      by_contra hc
      apply hd
      rw [div_eq_iff hk.ne']
      rw [hlag, hAB] at hge
      nlinarith
    have hN : nsq4 ![cross a b 0, cross a b 1, cross a b 2, dot3 a b + A * B] = 2 * (A * B) * (dot3 a b + A * B) := by
      have : nsq4 ![cross a b 0, cross a b 1, cross a b 2, dot3 a b + A * B] = nsq3 (cross a b) + (dot3 a b + A * B) * (dot3 a b + A * B) := by
        simp [nsq4, nsq3]
      rw [this, hlag, hAB]; ring
    have hN0 : 0 < 2 * (A * B) * (dot3 a b + A * B) := by positivity
    have hs := Real.mul_self_sqrt hN0.le
    have hs0 := Real.sqrt_pos.2 hN0
    unfold unit4
    rw [hN]
    generalize Real.sqrt (2 * (A * B) * (dot3 a b + A * B)) = S at *
    constructor
    · apply ofQuat_isRot
      have : nsq4 (fun i => ![cross a b 0, cross a b 1, cross a b 2, dot3 a b + A * B] i / S) =
          nsq4 ![cross a b 0, cross a b 1, cross a b 2, dot3 a b + A * B] / (S * S) := by
        unfold nsq4; field_simp
      rw [this, hN, hs, div_self hN0.ne']
    · rw [ofQuat_apply]
      -- the two double products
      have d1 : ∀ i, cross (cross a b) a i = A * A * b i - dot3 a b * a i := by
        intro i; rw [sa]; fin_cases i <;> simp [cross, nsq3, dot3] <;> ring
      have d2 : ∀ i, cross (cross a b) (cross (cross a b) a) i = -(A * B * (A * B) - dot3 a b * dot3 a b) * a i := by
        intro i
        rw [← hAB]; fin_cases i <;> simp [cross, nsq3, dot3] <;> ring
      have l1 : ∀ i, cross ![cross a b 0 / S, cross a b 1 / S, cross a b 2 / S] (fun i => a i / A) i = cross (cross a b) a i / (S * A) := by
        intro i
        generalize cross a b = c
        fin_cases i <;> simp [cross] <;> field_simp
      have l2 : ∀ i, cross ![cross a b 0 / S, cross a b 1 / S, cross a b 2 / S] (cross ![cross a b 0 / S, cross a b 1 / S, cross a b 2 / S] (fun i => a i / A)) i =
          cross (cross a b) (cross (cross a b) a) i / (S * S * A) := by
        intro i
        generalize cross a b = c
        fin_cases i <;> simp [cross] <;> field_simp
      ext i
      simp only [Matrix.cons_val_zero, Matrix.cons_val_one, Matrix.cons_val]
      rw [l1, l2, d1, d2]
      have e1 : 2 * ((dot3 a b + A * B) / S) * ((A * A * b i - dot3 a b * a i) / (S * A)) = 2 * (dot3 a b + A * B) * (A * A * b i - dot3 a b * a i) / (S * S * A) := by
        field_simp
      rw [e1, hs]
      field_simp
      ring

theorem nsq2_pos {a : V 2} (h : a ≠ 0) : 0 < nsq2 a := by
  unfold nsq2
  by_contra hc
  apply h
  have h0 := mul_self_nonneg (a 0); have h1 := mul_self_nonneg (a 1)
  have e0 : a 0 = 0 := mul_self_eq_zero.1 (by linarith)
  have e1 : a 1 = 0 := mul_self_eq_zero.1 (by linarith)
  exact v2_ext e0 e1

theorem nsq2_unit {a : V 2} (h : a ≠ 0) : unit2 a 0 * unit2 a 0 + unit2 a 1 * unit2 a 1 = 1 := by
  have hp := nsq2_pos h
  have hs := Real.mul_self_sqrt hp.le
  have hs0 := Real.sqrt_pos.2 hp
  unfold unit2
  generalize Real.sqrt (nsq2 a) = s at *
  unfold nsq2 at hs
  field_simp
  linarith

theorem between2_aux {a b : V 2} (ha : a ≠ 0) (hb : b ≠ 0) : IsRot (between2 a b) ∧ between2 a b *ᵥ unit2 a = unit2 b := by
  have h1 := nsq2_unit ha
  have h2 := nsq2_unit hb
  unfold between2
  generalize unit2 a = p at *
  generalize unit2 b = q at *
  refine ⟨⟨?_, ?_⟩, ?_⟩
  · apply m2_ext <;> simp [Matrix.mul_apply, Fin.sum_univ_two] <;> grind
  · rw [Matrix.det_fin_two]; simp; grind
  · apply v2_ext <;> simp [Matrix.mulVec, dotProduct, Fin.sum_univ_two] <;> grind

theorem ofAxis_deriv_aux {w : V 3} (hw : w ≠ 0) (v : V 3) (t : ℝ) :
    HasDerivAt (fun t => ofAxis .radian w (Real.sqrt (nsq3 w) * t) *ᵥ v) (angular3 w (ofAxis .radian w (Real.sqrt (nsq3 w) * t) *ᵥ v)) t := by
  have hn := nsq3_unit hw
  have hs0 := Real.sqrt_pos.2 (nsq3_pos hw)
  have hwu : ∀ i, w i = Real.sqrt (nsq3 w) * unit3 w i := by
    intro i; unfold unit3; field_simp
  simp only [ofAxis_apply_aux, toRad]
  generalize Real.sqrt (nsq3 w) = A at *
  generalize unit3 w = p at *
  have hlin : HasDerivAt (fun t : ℝ => A * t) A t := by simpa using (hasDerivAt_id t).const_mul A
  have hc := (Real.hasDerivAt_cos (A * t)).comp t hlin
  have hsn := (Real.hasDerivAt_sin (A * t)).comp t hlin
  rw [hasDerivAt_pi]
  intro i
  have := ((hc.mul_const (v i)).add (((hc.const_sub 1).mul_const (dot3 p v)).mul_const (p i))).add (hsn.mul_const (cross p v i))
  refine (this.congr_deriv ?_)
  unfold nsq3 at hn
  unfold angular3
  fin_cases i <;> simp [cross, dot3, hwu] <;> grind

theorem ofAngle_deriv_aux (w : ℝ) (v : V 2) (t : ℝ) : HasDerivAt (fun t => ofAngle (w * t) *ᵥ v) (angular2 w (ofAngle (w * t) *ᵥ v)) t := by
  have hlin : HasDerivAt (fun t : ℝ => w * t) w t := by simpa using (hasDerivAt_id t).const_mul w
  have hc := (Real.hasDerivAt_cos (w * t)).comp t hlin
  have hsn := (Real.hasDerivAt_sin (w * t)).comp t hlin
  rw [hasDerivAt_pi]
  intro i
  fin_cases i
  · have := (hc.mul_const (v 0)).add ((hsn.neg).mul_const (v 1))
    refine HasDerivAt.congr_deriv (f := fun t => (ofAngle (w * t) *ᵥ v) 0) (this.congr_of_eventuallyEq (Filter.Eventually.of_forall fun x => ?_)) ?_
    · simp [ofAngle, Matrix.mulVec, dotProduct, Fin.sum_univ_two]
    · simp [ofAngle, angular2, Matrix.mulVec, dotProduct, Fin.sum_univ_two]; ring
  · have := (hsn.mul_const (v 0)).add (hc.mul_const (v 1))
    refine HasDerivAt.congr_deriv (f := fun t => (ofAngle (w * t) *ᵥ v) 1) (this.congr_of_eventuallyEq (Filter.Eventually.of_forall fun x => ?_)) ?_
    · simp [ofAngle, Matrix.mulVec, dotProduct, Fin.sum_univ_two]
    · simp [ofAngle, angular2, Matrix.mulVec, dotProduct, Fin.sum_univ_two]; ring

end Verif.Rotation
