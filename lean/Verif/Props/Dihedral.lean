import Verif.Proof.DihedralFinal
import Mathlib.LinearAlgebra.Matrix.Determinant.Basic

/-! Claim C87: the angle between two triangles, its gradient and its Hessian. -/
namespace Verif.Dihedral

open Verif.Rotation (V M cross dot3 nsq3)
open Verif.Friction (nsq3_nonneg nsq3_pos nsq_cross)

/-- Turning the normal of the first triangle about the common edge by the angle gives the normal of the second; the angle is the only one in `(-π, π]` that does. -/
theorem angle_turn {v2 v0 v1 v3 : V 3} (h1 : Proper v2 v0 v1) (h2 : Proper v3 v1 v0) :
    (-Real.pi < angle v2 v0 v1 v3 ∧ angle v2 v0 v1 v3 ≤ Real.pi) ∧
    turn ((1 / norm (v1 - v0)) • (v1 - v0)) (angle v2 v0 v1 v3) (unitNormal v2 v0 v1) = unitNormal v3 v1 v0 ∧
    ∀ t, -Real.pi < t → t ≤ Real.pi → turn ((1 / norm (v1 - v0)) • (v1 - v0)) t (unitNormal v2 v0 v1) = unitNormal v3 v1 v0 → t = angle v2 v0 v1 v3 := by
  have ha := proper1 h1
  have hb := proper2 h2
  have htu : turn ((1 / norm (v1 - v0)) • (v1 - v0)) (angle v2 v0 v1 v3) (unitNormal v2 v0 v1) = unitNormal v3 v1 v0 := by
    rw [angle_arg ha hb, unitNormal, unitNormal, normal1 v2 v0 v1, normal2 v0 v1 v3]
    exact turn_eq ha hb
  have hr : -Real.pi < angle v2 v0 v1 v3 ∧ angle v2 v0 v1 v3 ≤ Real.pi := by
    rw [angle_arg ha hb]; exact ⟨Complex.neg_pi_lt_arg _, Complex.arg_le_pi _⟩
  refine ⟨hr, htu, fun t ht1 ht2 ht => ?_⟩
  have e := ht.trans htu.symm
  rw [unitNormal, normal1 v2 v0 v1] at e
  have hL := norm_pos (edge_pos ha)
  have hA := norm_pos ha
  have sL := norm_sq (v1 - v0)
  have sA := norm_sq (cross (v1 - v0) (v2 - v0))
  generalize angle v2 v0 v1 v3 = s at *
  generalize v1 - v0 = e0 at *
  generalize v2 - v0 = e1 at *
  have dn : ∀ r, dot3 (turn ((1 / norm e0) • e0) r ((1 / norm (cross e0 e1)) • cross e0 e1)) (cross e0 e1) = norm (cross e0 e1) * Real.cos r := by
    intro r
    have : dot3 (turn ((1 / norm e0) • e0) r ((1 / norm (cross e0 e1)) • cross e0 e1)) (cross e0 e1) = Real.cos r * (1 / norm (cross e0 e1) * nsq3 (cross e0 e1)) := by
      unfold turn
      generalize cross e0 e1 = n
      simp only [cross, dot3, nsq3, Pi.add_apply, Pi.smul_apply, smul_eq_mul, Matrix.cons_val_zero, Matrix.cons_val_one, Matrix.cons_val]; ring
    rw [this, ← sA]; field_simp
  have dm : ∀ r, dot3 (turn ((1 / norm e0) • e0) r ((1 / norm (cross e0 e1)) • cross e0 e1)) (cross e0 (cross e0 e1)) = norm e0 * norm (cross e0 e1) * Real.sin r := by
    intro r
    have : dot3 (turn ((1 / norm e0) • e0) r ((1 / norm (cross e0 e1)) • cross e0 e1)) (cross e0 (cross e0 e1)) =
        Real.sin r * (1 / norm e0 * (1 / norm (cross e0 e1)) * (nsq3 e0 * nsq3 (cross e0 e1))) := by
      unfold turn
      generalize 1 / norm (cross e0 e1) = k
      generalize 1 / norm e0 = m
      simp only [cross, dot3, nsq3, Pi.add_apply, Pi.smul_apply, smul_eq_mul, Matrix.cons_val_zero, Matrix.cons_val_one, Matrix.cons_val]; ring
    rw [this, ← sA, ← sL]; field_simp
  have hc : Real.cos t = Real.cos s := by
    have := (dn t).symm.trans ((congrArg (fun x => dot3 x (cross e0 e1)) e).trans (dn s))
    exact mul_left_cancel₀ hA.ne' this
  have hs : Real.sin t = Real.sin s := by
    have := (dm t).symm.trans ((congrArg (fun x => dot3 x (cross e0 (cross e0 e1))) e).trans (dm s))
    exact mul_left_cancel₀ (mul_pos hL hA).ne' this
  have a1 := Complex.arg_cos_add_sin_mul_I ⟨ht1, ht2⟩
  have a2 := Complex.arg_cos_add_sin_mul_I ⟨hr.1, hr.2⟩
  rw [← a1, ← a2, ← Complex.ofReal_cos, ← Complex.ofReal_cos, ← Complex.ofReal_sin, ← Complex.ofReal_sin, hc, hs]

/-- Zero for triangles with the same normal, `π` for triangles folded onto each other. -/
theorem angle_extremes {v2 v0 v1 v3 : V 3} (h1 : Proper v2 v0 v1) (h2 : Proper v3 v1 v0) :
    (angle v2 v0 v1 v3 = 0 ↔ unitNormal v3 v1 v0 = unitNormal v2 v0 v1) ∧ (angle v2 v0 v1 v3 = Real.pi ↔ Folded v2 v0 v1 v3) := by
  obtain ⟨-, ht, hu⟩ := angle_turn h1 h2
  have z : ∀ a x : V 3, turn a 0 x = x := fun a x => by simp [turn]
  have p : ∀ a x : V 3, turn a Real.pi x = -x := fun a x => by simp [turn]
  refine ⟨⟨fun h => ?_, fun h => ?_⟩, ⟨fun h => ?_, fun h => ?_⟩⟩
  · rw [h, z] at ht; exact ht.symm
  · exact (hu 0 (by linarith [Real.pi_pos]) Real.pi_pos.le (by rw [z, h])).symm
  · rw [h, p] at ht; exact ht.symm
  · exact (hu Real.pi (by linarith [Real.pi_pos]) le_rfl (by rw [p]; exact h.symm)).symm

/-- Both triangles have the same part: reading the points from the other end gives the same angle; exchanging the outer points turns it around. -/
theorem angle_exchange {v2 v0 v1 v3 : V 3} (h1 : Proper v2 v0 v1) (h2 : Proper v3 v1 v0) :
    angle v3 v1 v0 v2 = angle v2 v0 v1 v3 ∧ (¬ Folded v2 v0 v1 v3 → angle v3 v0 v1 v2 = -angle v2 v0 v1 v3) := by
  have ha := proper1 h1
  have hb := proper2 h2
  constructor
  · have hsg : dot3 (cross (cross (v0 - v2) (v1 - v2)) (cross (v1 - v3) (v0 - v3))) (v1 - v0) = dot3 (cross (cross (v1 - v3) (v0 - v3)) (cross (v0 - v2) (v1 - v2))) (v0 - v1) := by
      generalize cross (v0 - v2) (v1 - v2) = a
      generalize cross (v1 - v3) (v0 - v3) = b
      simp only [cross, dot3, Pi.sub_apply, Matrix.cons_val_zero, Matrix.cons_val_one, Matrix.cons_val]; ring
    have hd : ∀ a b : V 3, dot3 a b = dot3 b a := fun a b => by simp only [dot3]; ring
    unfold angle
    simp only [hsg, hd (cross (v1 - v3) (v0 - v3)), mul_comm (nsq3 (cross (v1 - v3) (v0 - v3)))]
  · intro hf
    have hpi : angle v2 v0 v1 v3 ≠ Real.pi := mt (angle_extremes h1 h2).2.1 hf
    rw [angle_arg ha hb] at hpi ⊢
    have hb' : 0 < nsq3 (cross (v1 - v0) (v3 - v0)) := by rw [nsq_swap]; exact hb
    have ha' : 0 < nsq3 (cross (v2 - v0) (v1 - v0)) := by rw [nsq_swap]; exact ha
    rw [angle_arg hb' ha']
    have : point (v1 - v0) (v3 - v0) (v2 - v0) = (starRingEnd ℂ) (point (v1 - v0) (v2 - v0) (v3 - v0)) := by
      generalize v1 - v0 = e0
      generalize v2 - v0 = e1
      generalize v3 - v0 = e2
      refine Complex.ext ?_ ?_
      · simp only [point, Complex.conj_re, cross, dot3, Matrix.cons_val_zero, Matrix.cons_val_one, Matrix.cons_val]; ring
      · simp only [point, Complex.conj_im, cross, dot3, Matrix.cons_val_zero, Matrix.cons_val_one, Matrix.cons_val]; ring
    rw [this, Complex.arg_conj, if_neg hpi]

/-- Moving all points rigidly does not change the angle. -/
theorem angle_rigid (R : M 3) (hR : R.transpose * R = 1) (hdet : R.det = 1) (c v2 v0 v1 v3 : V 3) :
    angle (R.mulVec v2 + c) (R.mulVec v0 + c) (R.mulVec v1 + c) (R.mulVec v3 + c) = angle v2 v0 v1 v3 := by
  have hs : ∀ a b : V 3, R.mulVec a + c - (R.mulVec b + c) = R.mulVec (a - b) := fun a b => by rw [Matrix.mulVec_sub]; abel
  have hdot : ∀ a b : V 3, dot3 (R.mulVec a) (R.mulVec b) = dot3 a b := by
    intro a b
    have e : ∀ a b : V 3, dot3 a b = a ⬝ᵥ b := fun a b => by simp only [dot3, dotProduct, Fin.sum_univ_three]
    rw [e, e, Matrix.dotProduct_mulVec, ← Matrix.mulVec_transpose, Matrix.mulVec_mulVec, hR, Matrix.one_mulVec]
  have htri : ∀ a b d : V 3, dot3 (cross (R.mulVec a) (R.mulVec b)) (R.mulVec d) = dot3 (cross a b) d := by
    intro a b d
    rw [Matrix.det_fin_three] at hdet
    have : dot3 (cross (R.mulVec a) (R.mulVec b)) (R.mulVec d) =
        (R 0 0 * R 1 1 * R 2 2 - R 0 0 * R 1 2 * R 2 1 - R 0 1 * R 1 0 * R 2 2 + R 0 1 * R 1 2 * R 2 0 + R 0 2 * R 1 0 * R 2 1 - R 0 2 * R 1 1 * R 2 0) * dot3 (cross a b) d := by
      simp only [dot3, cross, Matrix.mulVec, dotProduct, Fin.sum_univ_three, Matrix.cons_val_zero, Matrix.cons_val_one, Matrix.cons_val]; ring
    rw [this, hdet, one_mul]
  have gram : ∀ a b x y : V 3, dot3 (cross a b) (cross x y) = dot3 a x * dot3 b y - dot3 a y * dot3 b x := by
    intro a b x y
    simp only [dot3, cross, Matrix.cons_val_zero, Matrix.cons_val_one, Matrix.cons_val]; ring
  have quad : ∀ a b x y z : V 3, dot3 (cross (cross a b) (cross x y)) z = dot3 (cross a b) y * dot3 x z - dot3 (cross a b) x * dot3 y z := by
    intro a b x y z
    simp only [dot3, cross, Matrix.cons_val_zero, Matrix.cons_val_one, Matrix.cons_val]; ring
  have hn : ∀ a b : V 3, nsq3 (cross a b) = dot3 a a * dot3 b b - dot3 a b * dot3 b a := fun a b => gram a b a b
  unfold angle
  simp only [hs, gram, quad, hn, hdot, htri]

/-- The gradient is the derivative of the angle in every direction, except for folded triangles, where the angle jumps. -/
theorem gradient_deriv {v2 v0 v1 v3 : V 3} (h1 : Proper v2 v0 v1) (h2 : Proper v3 v1 v0) (hf : ¬ Folded v2 v0 v1 v3) (w : Fin 4 → V 3) :
    HasDerivAt (fun t : ℝ => angle (v2 + t • w 0) (v0 + t • w 1) (v1 + t • w 2) (v3 + t • w 3)) (∑ p, dot3 (gradient v2 v0 v1 v3 p) (w p)) 0 := by
  have ha := proper1 h1
  have hb := proper2 h2
  have hL := norm_pos (edge_pos ha)
  have z : ∀ a b : V 3, a + (0 : ℝ) • b = a := fun a b => by simp
  have f0 := (HasD.line v1 (w 2)).sub (HasD.line v0 (w 1))
  have f1 := (HasD.line v2 (w 0)).sub (HasD.line v0 (w 1))
  have f2 := (HasD.line v3 (w 3)).sub (HasD.line v0 (w 1))
  have hpi : angle v2 v0 v1 v3 ≠ Real.pi := mt (angle_extremes h1 h2).2.1 hf
  rw [angle_arg ha hb] at hpi
  have hne : point (v1 - v0) (v2 - v0) (v3 - v0) ≠ 0 := by
    rw [← norm_pos_iff, point_norm]; exact Real.sqrt_pos.2 (mul_pos ha hb)
  have hslit : point (v1 - v0) (v2 - v0) (v3 - v0) ∈ Complex.slitPlane := Complex.mem_slitPlane_iff_arg.2 ⟨hpi, hne⟩
  have hd := point_deriv f0 f1 f2 (by simpa only [z] using ha) (by simpa only [z] using hb) (by simpa only [z] using hslit)
  have ca := (f0.cross f1).nsq.continuousAt
  have cb := (f2.cross f0).nsq.continuousAt
  have ea := ca.eventually (lt_mem_nhds (b := nsq3 (cross (v1 + (0 : ℝ) • w 2 - (v0 + (0 : ℝ) • w 1)) (v2 + (0 : ℝ) • w 0 - (v0 + (0 : ℝ) • w 1)))) (a := 0) (by simpa only [z] using ha))
  have eb := cb.eventually (lt_mem_nhds (b := nsq3 (cross (v3 + (0 : ℝ) • w 3 - (v0 + (0 : ℝ) • w 1)) (v1 + (0 : ℝ) • w 2 - (v0 + (0 : ℝ) • w 1)))) (a := 0) (by simpa only [z] using hb))
  refine (hd.congr_of_eventuallyEq ?_).congr_deriv ?_
  · filter_upwards [ea, eb] with t hta htb
    exact angle_arg hta htb
  · simp only [z]
    have r3 : v2 - v1 = (v2 - v0) - (v1 - v0) := (sub_sub_sub_cancel_right _ _ _).symm
    have r4 : v3 - v1 = (v3 - v0) - (v1 - v0) := (sub_sub_sub_cancel_right _ _ _).symm
    have s0 := norm_sq (v1 - v0)
    have self : ∀ a : V 3, dot3 a a = nsq3 a := fun a => rfl
    have sr : ∀ (k : ℝ) (a b : V 3), dot3 a (k • b) = k * dot3 a b := fun k a b => by simp only [dot3, Pi.smul_apply, smul_eq_mul]; ring
    simp only [Fin.sum_univ_four, gradient, Matrix.cons_val_zero, Matrix.cons_val_one, Matrix.cons_val, r3, r4, dot_smul_left, dot_add_left, dot_sub_left, dot_add_right, dot_sub_right, sr, self, ← s0]
    field_simp
    ring

/-- The gradient is a system of forces without sum and without moment. -/
theorem gradient_balance {v2 v0 v1 v3 : V 3} (h1 : Proper v2 v0 v1) (h2 : Proper v3 v1 v0) :
    ∑ p, gradient v2 v0 v1 v3 p = 0 ∧ ∑ p, cross ((![v2, v0, v1, v3] : Fin 4 → V 3) p) (gradient v2 v0 v1 v3 p) = 0 := by
  have ha := proper1 h1
  have hb : 0 < nsq3 (cross (v1 - v0) (v3 - v0)) := by rw [nsq_swap]; exact proper2 h2
  have hl := edge_pos ha
  have hsum : ∀ e1 : V 3, ∀ i, halfGrad (v1 - v0) e1 0 i + halfGrad (v1 - v0) e1 1 i + halfGrad (v1 - v0) e1 2 i = 0 := by
    intro e1 i
    have : -nsq3 (v1 - v0) + -dot3 (v1 - v0) (e1 - (v1 - v0)) + dot3 (v1 - v0) e1 = 0 := by
      generalize v1 - v0 = e0
      simp only [nsq3, dot3, Pi.sub_apply]; ring
    simp only [halfGrad, num, Matrix.cons_val_zero, Matrix.cons_val_one, Matrix.cons_val]
    rw [← add_mul, ← add_mul, ← add_div, ← add_div, this]; simp
  have g := gradient_eq (v2 := v2) (v0 := v0) (v1 := v1) (v3 := v3) hl
  have hs : ∀ i, gradient v2 v0 v1 v3 0 i + gradient v2 v0 v1 v3 1 i + gradient v2 v0 v1 v3 2 i + gradient v2 v0 v1 v3 3 i = 0 := by
    intro i
    rw [g, g, g, g]
    simp only [partG, pos1, pos2, Matrix.cons_val_zero, Matrix.cons_val_one, Matrix.cons_val]
    linarith [hsum (v2 - v0) i, hsum (v3 - v0) i]
  refine ⟨?_, ?_⟩
  · funext i
    simp only [Fin.sum_univ_four, Pi.add_apply, Pi.zero_apply]
    exact hs i
  · have m1 := moment ha
    have m2 := moment hb
    have q0 : gradient v2 v0 v1 v3 0 = halfGrad (v1 - v0) (v2 - v0) 0 := by
      funext i; rw [g]; simp only [partG, pos1, pos2, Matrix.cons_val_zero, sub_zero]
    have q3 : ∀ i, gradient v2 v0 v1 v3 3 i = -halfGrad (v1 - v0) (v3 - v0) 0 i := by
      intro i; rw [g]; simp only [partG, pos1, pos2, Matrix.cons_val, zero_sub]
    have q2 : ∀ i, gradient v2 v0 v1 v3 2 i = halfGrad (v1 - v0) (v2 - v0) 2 i - halfGrad (v1 - v0) (v3 - v0) 2 i := by
      intro i; rw [g]; simp only [partG, pos1, pos2, Matrix.cons_val]
    have q1 : ∀ i, gradient v2 v0 v1 v3 1 i = -(gradient v2 v0 v1 v3 0 i + gradient v2 v0 v1 v3 2 i + gradient v2 v0 v1 v3 3 i) := fun i => by linarith [hs i]
    funext i
    have k1 := m1 i
    have k2 := m2 i
    simp only [Fin.sum_univ_four, Pi.add_apply, Pi.zero_apply]
    rcases (by omega : i = 0 ∨ i = 1 ∨ i = 2) with rfl | rfl | rfl <;>
    · simp only [cross, Matrix.cons_val_zero, Matrix.cons_val_one, Matrix.cons_val, q1, q2, q3, q0, Pi.sub_apply] at *
      linear_combination k1 - k2

/-- The Hessian is the derivative of the gradient in every direction. -/
theorem hessian_deriv {v2 v0 v1 v3 : V 3} (h1 : Proper v2 v0 v1) (h2 : Proper v3 v1 v0) (w : Fin 4 → V 3) (p : Fin 4) (i : Fin 3) :
    HasDerivAt (fun t : ℝ => gradient (v2 + t • w 0) (v0 + t • w 1) (v1 + t • w 2) (v3 + t • w 3) p i) (∑ q, ∑ j, hessian v2 v0 v1 v3 p q i j * w q j) 0 := by
  have ha := proper1 h1
  have hb := proper2 h2
  have hb' : 0 < nsq3 (cross (v1 - v0) (v3 - v0)) := by rw [nsq_swap]; exact hb
  have hne : pos2 ≠ pos1 := by intro h; have := congrFun h 0; simp [pos1, pos2] at this
  have d1 := partG_deriv (Or.inl rfl) v0 v1 v2 w ha p i
  have d2 := partG_deriv (Or.inr rfl) v0 v1 v3 w hb' p i
  rw [if_pos rfl] at d1
  rw [if_neg hne] at d2
  have z : ∀ a b : V 3, a + (0 : ℝ) • b = a := fun a b => by simp
  have c0 := ((HasD.line v1 (w 2)).sub (HasD.line v0 (w 1))).nsq.continuousAt
  have e0 := c0.eventually (lt_mem_nhds (b := nsq3 (v1 + (0 : ℝ) • w 2 - (v0 + (0 : ℝ) • w 1))) (a := 0) (by simpa only [z] using edge_pos ha))
  refine ((d1.sub d2).congr_of_eventuallyEq ?_).congr_deriv ?_
  · filter_upwards [e0] with t ht
    exact gradient_eq ht p i
  · simp only [hessian_eq ha hb, sub_mul, Finset.sum_sub_distrib]
    ring

/-- The Hessian is symmetric. -/
theorem hessian_symm {v2 v0 v1 v3 : V 3} (h1 : Proper v2 v0 v1) (h2 : Proper v3 v1 v0) (p q : Fin 4) (i j : Fin 3) :
    hessian v2 v0 v1 v3 p q i j = hessian v2 v0 v1 v3 q p j i := by
  have ha := proper1 h1
  have hb := proper2 h2
  have hb' : 0 < nsq3 (cross (v1 - v0) (v3 - v0)) := by rw [nsq_swap]; exact hb
  have s1 := part_symm (Or.inl rfl) ha p q i j
  have s2 := part_symm (Or.inr rfl) hb' p q i j
  rw [hessian_eq ha hb, hessian_eq ha hb]
  linarith

/-! ### The hypotheses are met -/

example : Proper ![0, 1, 0] ![0, 0, 0] ![1, 0, (0 : ℝ)] := ⟨2, by simp [cross]⟩
example : Proper ![0, 0, 1] ![1, 0, 0] ![0, 0, (0 : ℝ)] := ⟨1, by simp [cross]⟩
example : ¬ Folded ![0, 1, 0] ![0, 0, 0] ![1, 0, 0] ![0, 0, (1 : ℝ)] := by
  intro h
  have := congrFun h 2
  simp [unitNormal, cross, norm, nsq3] at this

end Verif.Dihedral
