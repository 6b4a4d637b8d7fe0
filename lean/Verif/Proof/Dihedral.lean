import Verif.Spec.Dihedral
import Verif.Proof.Friction
import Mathlib.Analysis.SpecialFunctions.Complex.LogDeriv

/-! Helper lemmas for the angle between two triangles. -/
namespace Verif.Dihedral

open Verif.Rotation (V M cross dot3 nsq3)
open Verif.Friction (nsq3_nonneg nsq3_pos nsq_cross)

/-- Edges from `v0`, normals and the volume that gives the sign. -/
theorem normal1 (v2 v0 v1 : V 3) : cross (v0 - v2) (v1 - v2) = cross (v1 - v0) (v2 - v0) := by
  funext i; rcases (by omega : i = 0 ∨ i = 1 ∨ i = 2) with rfl | rfl | rfl <;>
  · simp only [cross, Pi.sub_apply, Matrix.cons_val_zero, Matrix.cons_val_one, Matrix.cons_val]; ring

theorem normal2 (v0 v1 v3 : V 3) : cross (v1 - v3) (v0 - v3) = cross (v3 - v0) (v1 - v0) := by
  funext i; rcases (by omega : i = 0 ∨ i = 1 ∨ i = 2) with rfl | rfl | rfl <;>
  · simp only [cross, Pi.sub_apply, Matrix.cons_val_zero, Matrix.cons_val_one, Matrix.cons_val]; ring

theorem sign_eq (e0 e1 e2 : V 3) : dot3 (cross (cross e2 e0) (cross e0 e1)) (-e0) = nsq3 e0 * -dot3 (cross e2 e0) e1 := by
  simp only [cross, dot3, nsq3, Pi.neg_apply, Matrix.cons_val_zero, Matrix.cons_val_one, Matrix.cons_val]; ring

theorem lagrange (e0 e1 e2 : V 3) :
    nsq3 (cross e0 e1) * nsq3 (cross e2 e0) = dot3 (cross e0 e1) (cross e2 e0) ^ 2 + nsq3 e0 * dot3 (cross e2 e0) e1 ^ 2 := by
  simp only [cross, dot3, nsq3, Matrix.cons_val_zero, Matrix.cons_val_one, Matrix.cons_val]; ring

theorem norm_sq (a : V 3) : norm a * norm a = nsq3 a := Real.mul_self_sqrt (nsq3_nonneg a)

/-- The complex number whose argument is the angle. -/
noncomputable def point (e0 e1 e2 : V 3) : ℂ := ⟨dot3 (cross e0 e1) (cross e2 e0), norm e0 * -dot3 (cross e2 e0) e1⟩

theorem point_norm (e0 e1 e2 : V 3) : ‖point e0 e1 e2‖ = Real.sqrt (nsq3 (cross e0 e1) * nsq3 (cross e2 e0)) := by
  have h : ‖point e0 e1 e2‖ ^ 2 = nsq3 (cross e0 e1) * nsq3 (cross e2 e0) := by
    rw [Complex.sq_norm, point, Complex.normSq_mk, lagrange, ← norm_sq e0]
    ring
  rw [← h, Real.sqrt_sq (_root_.norm_nonneg _)]

theorem edge_pos {e0 e1 : V 3} (h : 0 < nsq3 (cross e0 e1)) : 0 < nsq3 e0 := by
  rw [nsq_cross] at h
  refine lt_of_le_of_ne (nsq3_nonneg _) fun h0 => ?_
  rw [← h0] at h
  nlinarith [sq_nonneg (dot3 e0 e1)]

theorem norm_pos {a : V 3} (h : 0 < nsq3 a) : 0 < norm a := Real.sqrt_pos.2 h

/-- The angle of the code is the argument. -/
theorem angle_arg {v2 v0 v1 v3 : V 3} (h1 : 0 < nsq3 (cross (v1 - v0) (v2 - v0))) (h2 : 0 < nsq3 (cross (v3 - v0) (v1 - v0))) :
    angle v2 v0 v1 v3 = Complex.arg (point (v1 - v0) (v2 - v0) (v3 - v0)) := by
  have hneg : v0 - v1 = -(v1 - v0) := (neg_sub _ _).symm
  unfold angle
  simp only [normal1 v2 v0 v1, normal2 v0 v1 v3]
  rw [hneg, sign_eq]
  generalize v1 - v0 = e0 at *
  generalize v2 - v0 = e1 at *
  generalize v3 - v0 = e2 at *
  have hl := edge_pos h1
  have hp : 0 < ‖point e0 e1 e2‖ := by rw [point_norm]; exact Real.sqrt_pos.2 (mul_pos h1 h2)
  have hre : (point e0 e1 e2).re = dot3 (cross e0 e1) (cross e2 e0) := rfl
  have him : (point e0 e1 e2).im = norm e0 * -dot3 (cross e2 e0) e1 := rfl
  rw [← point_norm, ← hre]
  have hab : -1 ≤ (point e0 e1 e2).re / ‖point e0 e1 e2‖ ∧ (point e0 e1 e2).re / ‖point e0 e1 e2‖ ≤ 1 :=
    abs_le.1 (by rw [abs_div, abs_of_pos hp, div_le_one hp]; exact Complex.abs_re_le_norm _)
  rw [min_eq_right hab.2, max_eq_right hab.1]
  have hsg : nsq3 e0 * -dot3 (cross e2 e0) e1 < 0 ↔ (point e0 e1 e2).im < 0 := by
    rw [him, mul_neg_iff, mul_neg_iff]
    simp [hl, hl.le, norm_pos hl, (norm_pos hl).le, not_lt.2 hl.le, not_lt.2 (norm_pos hl).le]
  by_cases hs : nsq3 e0 * -dot3 (cross e2 e0) e1 < 0
  · rw [if_pos hs, Complex.arg_of_im_neg (hsg.1 hs)]
  · rw [if_neg hs, Complex.arg_of_im_nonneg_of_ne_zero (not_lt.1 (mt hsg.2 hs)) (norm_pos_iff.1 hp)]

theorem turn_eq {e0 e1 e2 : V 3} (h1 : 0 < nsq3 (cross e0 e1)) (h2 : 0 < nsq3 (cross e2 e0)) :
    turn ((1 / norm e0) • e0) (Complex.arg (point e0 e1 e2)) ((1 / norm (cross e0 e1)) • cross e0 e1) = (1 / norm (cross e2 e0)) • cross e2 e0 := by
  have hl := edge_pos h1
  have hl' := norm_pos hl
  have ha := norm_pos h1
  have hb := norm_pos h2
  have hn : ‖point e0 e1 e2‖ = norm (cross e0 e1) * norm (cross e2 e0) := by
    rw [point_norm, Real.sqrt_mul h1.le]; rfl
  have hp : 0 < ‖point e0 e1 e2‖ := by rw [hn]; exact mul_pos ha hb
  unfold turn
  rw [Complex.cos_arg (norm_pos_iff.1 hp), Complex.sin_arg, hn]
  change ((dot3 (cross e0 e1) (cross e2 e0)) / _) • _ + ((norm e0 * -dot3 (cross e2 e0) e1) / _) • _ = _
  have key : ∀ i, dot3 (cross e0 e1) (cross e2 e0) * cross e0 e1 i - dot3 (cross e2 e0) e1 * cross e0 (cross e0 e1) i = nsq3 (cross e0 e1) * cross e2 e0 i := by
    intro i; rcases (by omega : i = 0 ∨ i = 1 ∨ i = 2) with rfl | rfl | rfl <;>
    · simp only [cross, dot3, nsq3, Matrix.cons_val_zero, Matrix.cons_val_one, Matrix.cons_val]; ring
  have lin : ∀ (k m : ℝ) (a b : V 3) (i : Fin 3), cross (k • a) (m • b) i = k * m * cross a b i := by
    intro k m a b i; rcases (by omega : i = 0 ∨ i = 1 ∨ i = 2) with rfl | rfl | rfl <;>
    · simp only [cross, Pi.smul_apply, smul_eq_mul, Matrix.cons_val_zero, Matrix.cons_val_one, Matrix.cons_val]; ring
  funext i
  simp only [Pi.add_apply, Pi.smul_apply, smul_eq_mul, lin]
  have k := key i
  rw [← norm_sq (cross e0 e1)] at k
  generalize norm (cross e0 e1) = A at *
  generalize norm (cross e2 e0) = B at *
  generalize norm e0 = L at *
  field_simp
  linear_combination k

end Verif.Dihedral
