import Verif.Proof.DihedralHess

/-! The blocks of the Hessian of the angle between two triangles. -/
namespace Verif.Dihedral

open Verif.Rotation (V M cross dot3 nsq3)
open Verif.Friction (nsq3_nonneg nsq3_pos nsq_cross)

theorem mHat_eq {xp x0 x1 n : V 3} (hn : 0 < nsq3 n) (he : nsq3 (cross (x1 - x0) (xp - x0)) = nsq3 n) (i : Fin 3) :
    mHat xp x0 x1 i = perp (xp - x0) (x1 - x0) i / (norm (x1 - x0) * norm n) := by
  have hq : 0 < nsq3 (x1 - x0) := edge_pos (he ▸ hn)
  have hm : x0 + (dot3 (xp - x0) (x1 - x0) / nsq3 (x1 - x0)) • (x1 - x0) - xp = (1 / nsq3 (x1 - x0)) • perp (xp - x0) (x1 - x0) := by
    funext i
    simp only [Pi.add_apply, Pi.sub_apply, Pi.smul_apply, smul_eq_mul, perp]
    field_simp
    ring
  unfold mHat
  simp only [hm]
  have hnorm : norm ((1 / nsq3 (x1 - x0)) • perp (xp - x0) (x1 - x0)) = norm n / norm (x1 - x0) := by
    have hsq : nsq3 ((1 / nsq3 (x1 - x0)) • perp (xp - x0) (x1 - x0)) = nsq3 n / nsq3 (x1 - x0) := by
      have e1 : nsq3 ((1 / nsq3 (x1 - x0)) • perp (xp - x0) (x1 - x0)) = (1 / nsq3 (x1 - x0)) ^ 2 * nsq3 (perp (xp - x0) (x1 - x0)) := by
        simp only [nsq3, Pi.smul_apply, smul_eq_mul]; ring
      have e2 : nsq3 (perp (xp - x0) (x1 - x0)) = nsq3 (x1 - x0) * nsq3 n := by
        rw [← he]
        generalize xp - x0 = p
        generalize x1 - x0 = q
        simp only [nsq3, perp, dot3, cross, Matrix.cons_val_zero, Matrix.cons_val_one, Matrix.cons_val]; ring
      rw [e1, e2]
      field_simp
    unfold norm
    rw [hsq, Real.sqrt_div' _ hq.le]
  rw [hnorm]
  have h1 := norm_pos hq
  have h2 := norm_pos hn
  simp only [Pi.smul_apply, smul_eq_mul]
  rw [← norm_sq (x1 - x0)]
  field_simp

theorem cross_swap (a b : V 3) (i : Fin 3) : cross a b i = -cross b a i := by
  rcases (by omega : i = 0 ∨ i = 1 ∨ i = 2) with rfl | rfl | rfl <;>
  · simp only [cross, Matrix.cons_val_zero, Matrix.cons_val_one, Matrix.cons_val]; ring

theorem nsq_swap (a b : V 3) : nsq3 (cross a b) = nsq3 (cross b a) := by
  simp only [nsq3, cross_swap a b]; ring

theorem nsq_far (a b : V 3) : nsq3 (cross (b - a) (-a)) = nsq3 (cross a b) := by
  simp only [nsq3, cross, Pi.sub_apply, Pi.neg_apply, Matrix.cons_val_zero, Matrix.cons_val_one, Matrix.cons_val]; ring

theorem nsq_far' (a b : V 3) : nsq3 (cross a (b - a)) = nsq3 (cross a b) := by
  simp only [nsq3, cross, Pi.sub_apply, Matrix.cons_val_zero, Matrix.cons_val_one, Matrix.cons_val]; ring

theorem dy_apply (a b : V 3) (i j : Fin 3) : dyadic a b i j = a i * b j := rfl

theorem div_apply (m : M 3) (k : ℝ) (i j : Fin 3) : divide m k i j = m i j / k := rfl

/-- Where the points `v2 v0 v1` and `v3 v0 v1` of the two triangles are among the four. -/
def pos1 : Fin 4 → Option (Fin 3) := ![some 0, some 1, some 2, none]
def pos2 : Fin 4 → Option (Fin 3) := ![none, some 1, some 2, some 0]

/-- The part of one triangle in the Hessian. -/
noncomputable def part (pos : Fin 4 → Option (Fin 3)) (e0 e1 : V 3) (p q : Fin 4) (i j : Fin 3) : ℝ :=
  match pos p, pos q with
  | some k, some m => halfNum e0 e1 k m i j / (norm e0 ^ 3 * nsq3 (cross e0 e1) ^ 2)
  | _, _ => 0

theorem hessian_eq {v2 v0 v1 v3 : V 3} (ha : 0 < nsq3 (cross (v1 - v0) (v2 - v0))) (hb : 0 < nsq3 (cross (v3 - v0) (v1 - v0))) (p q : Fin 4) (i j : Fin 3) :
    hessian v2 v0 v1 v3 p q i j = part pos1 (v1 - v0) (v2 - v0) p q i j - part pos2 (v1 - v0) (v3 - v0) p q i j := by
  have r3 : v2 - v1 = (v2 - v0) - (v1 - v0) := (sub_sub_sub_cancel_right _ _ _).symm
  have r4 : v3 - v1 = (v3 - v0) - (v1 - v0) := (sub_sub_sub_cancel_right _ _ _).symm
  have r0 : v0 - v1 = -(v1 - v0) := (neg_sub _ _).symm
  have m1 := mHat_eq (xp := v1) (x0 := v0) (x1 := v2) ha (nsq_swap _ _)
  have m2 := mHat_eq (xp := v1) (x0 := v0) (x1 := v3) hb rfl
  have m3 := mHat_eq (xp := v0) (x0 := v1) (x1 := v2) ha (by rw [r3, r0, nsq_far])
  have m4 := mHat_eq (xp := v0) (x0 := v1) (x1 := v3) hb (by rw [r4, r0, nsq_far, nsq_swap])
  have m01 := mHat_eq (xp := v2) (x0 := v0) (x1 := v1) ha rfl
  have m02 := mHat_eq (xp := v3) (x0 := v0) (x1 := v1) hb (nsq_swap _ _)
  have p0 := norm_pos (edge_pos ha)
  have p1 : 0 < norm (v2 - v0) := norm_pos (edge_pos (by rw [nsq_swap]; exact ha))
  have p2 : 0 < norm (v3 - v0) := norm_pos (edge_pos hb)
  have p3 : 0 < norm (v2 - v1) := by
    refine norm_pos (edge_pos (e1 := -(v1 - v0)) ?_); rw [r3, nsq_far]; exact ha
  have p4 : 0 < norm (v3 - v1) := by
    refine norm_pos (edge_pos (e1 := -(v1 - v0)) ?_); rw [r4, nsq_far, nsq_swap]; exact hb
  have pa := norm_pos ha
  have pb := norm_pos hb
  have sa := norm_sq (cross (v1 - v0) (v2 - v0))
  have sb := norm_sq (cross (v3 - v0) (v1 - v0))
  have s0 := norm_sq (v1 - v0)
  have sw := cross_swap (v3 - v0) (v1 - v0)
  have hs2 : nsq3 (cross (v1 - v0) (v3 - v0)) = nsq3 (cross (v3 - v0) (v1 - v0)) := nsq_swap _ _
  rw [r0] at m3 m4
  unfold hessian
  rw [r3] at *
  rw [r4] at *
  generalize v1 - v0 = e0 at *
  generalize v2 - v0 = e1 at *
  generalize v3 - v0 = e2 at *
  generalize mHat v1 v0 v2 = M1 at *
  generalize mHat v1 v0 v3 = M2 at *
  generalize mHat v0 v1 v2 = M3 at *
  generalize mHat v0 v1 v3 = M4 at *
  generalize mHat v2 v0 v1 = M01 at *
  generalize mHat v3 v0 v1 = M02 at *
  generalize norm (cross e0 e1) = A at *
  generalize norm (cross e2 e0) = B at *
  generalize norm (e1 - e0) = E3 at *
  generalize norm (e2 - e0) = E4 at *
  generalize norm e1 = E1 at *
  generalize norm e2 = E2 at *
  rcases (by omega : p = 0 ∨ p = 1 ∨ p = 2 ∨ p = 3) with rfl | rfl | rfl | rfl <;> rcases (by omega : q = 0 ∨ q = 1 ∨ q = 2 ∨ q = 3) with rfl | rfl | rfl | rfl <;>
  · simp only [dy_apply, div_apply, part, pos1, pos2, halfNum, Matrix.cons_val_zero, Matrix.cons_val_one, Matrix.cons_val, Matrix.add_apply, Matrix.sub_apply, Matrix.neg_apply, Matrix.transpose_apply,
      Matrix.zero_apply, Pi.smul_apply, smul_eq_mul, m1, m2, m3, m4, m01, m02, sw, hs2, ← sa, ← sb, ← s0]
    generalize perp e1 e0 = u01
    generalize perp e2 e0 = u02
    generalize perp e0 e1 = u1
    generalize perp e0 e2 = u2
    generalize perp (-e0) (e1 - e0) = u3
    generalize perp (-e0) (e2 - e0) = u4
    generalize cross e0 e1 = n1
    generalize cross e0 e2 = n2
    generalize norm e0 = L at *
    field_simp
    ring

end Verif.Dihedral
