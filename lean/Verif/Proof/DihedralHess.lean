import Verif.Proof.DihedralDeriv

/-! The Hessian of the angle between two triangles: one triangle at a time. -/
namespace Verif.Dihedral

open Verif.Rotation (V M cross dot3 nsq3)
open Verif.Friction (nsq3_nonneg nsq3_pos nsq_cross)

/-- Directions at right angles to an edge, in the plane of the triangle, times the squared length. -/
def perp (p q : V 3) : V 3 := fun i => dot3 p q * q i - nsq3 q * p i

/-- Numerators of the gradient: `num k / (norm e0 * nsq3 n)` times the normal, for the points `v2 v0 v1`. -/
def num (e0 e1 : V 3) : Fin 3 → ℝ := ![-nsq3 e0, -dot3 e0 (e1 - e0), dot3 e0 e1]

noncomputable def halfGrad (e0 e1 : V 3) (k : Fin 3) : V 3 := fun i => num e0 e1 k / (norm e0 * nsq3 (cross e0 e1)) * cross e0 e1 i

/-- The part of the Hessian of one triangle, multiplied by `norm e0 ^ 3 * nsq3 n ^ 2`. -/
def halfNum (e0 e1 : V 3) : Fin 3 → Fin 3 → M 3 :=
  let n := cross e0 e1
  let u01 := perp e1 e0
  let u1 := perp e0 e1
  let u3 := perp (-e0) (e1 - e0)
  let l2 := nsq3 e0
  let k3 := -dot3 e0 (e1 - e0)
  let k1 := dot3 e0 e1
  let a := nsq3 n
  ![![fun i j => -(l2 * l2 * (n i * u01 j + n j * u01 i)), fun i j => l2 * k3 * u01 j * n i - l2 * l2 * (n j * u3 i), fun i j => l2 * k1 * u01 j * n i - l2 * l2 * (n j * u1 i)],
    ![fun i j => l2 * k3 * u01 i * n j - l2 * l2 * (n i * u3 j), fun i j => l2 * k3 * (u3 i * n j + u3 j * n i) - a * (n i * u01 j), fun i j => l2 * k3 * (u1 i * n j) + l2 * k1 * (u3 j * n i) + a * (n i * u01 j)],
    ![fun i j => l2 * k1 * u01 i * n j - l2 * l2 * (n i * u1 j), fun i j => l2 * k3 * (u1 j * n i) + l2 * k1 * (u3 i * n j) + a * (n j * u01 i), fun i j => l2 * k1 * (u1 i * n j + u1 j * n i) - a * (n i * u01 j)]]

/-- The derivative of the numerators and the normal in directions `d0 d1` of the edges, multiplied likewise. -/
def halfDer (e0 e1 d0 d1 : V 3) (k : Fin 3) : V 3 := fun i =>
  let n := cross e0 e1
  let n' := cross d0 e1 + cross e0 d1
  let f := num e0 e1 k
  let f' : ℝ := ![-(2 * dot3 e0 d0), -(dot3 d0 (e1 - e0) + dot3 e0 (d1 - d0)), dot3 d0 e1 + dot3 e0 d1] k
  nsq3 e0 * nsq3 n * (f' * n i + f * n' i) - f * n i * (dot3 e0 d0 * nsq3 n + nsq3 e0 * (2 * dot3 n n'))

theorem half000 (e0 e1 d : V 3) : halfDer e0 e1 0 d 0 0 = halfNum e0 e1 0 0 0 0 * d 0 + halfNum e0 e1 0 0 0 1 * d 1 + halfNum e0 e1 0 0 0 2 * d 2 := by
  simp only [halfDer, halfNum, num, perp, cross, dot3, nsq3, Pi.add_apply, Pi.sub_apply, Pi.neg_apply, Pi.zero_apply, Matrix.cons_val_zero, Matrix.cons_val_one, Matrix.cons_val]
  ring

theorem half001 (e0 e1 d : V 3) : halfDer e0 e1 0 d 0 1 = halfNum e0 e1 0 0 1 0 * d 0 + halfNum e0 e1 0 0 1 1 * d 1 + halfNum e0 e1 0 0 1 2 * d 2 := by
  simp only [halfDer, halfNum, num, perp, cross, dot3, nsq3, Pi.add_apply, Pi.sub_apply, Pi.neg_apply, Pi.zero_apply, Matrix.cons_val_zero, Matrix.cons_val_one, Matrix.cons_val]
  ring

theorem half002 (e0 e1 d : V 3) : halfDer e0 e1 0 d 0 2 = halfNum e0 e1 0 0 2 0 * d 0 + halfNum e0 e1 0 0 2 1 * d 1 + halfNum e0 e1 0 0 2 2 * d 2 := by
  simp only [halfDer, halfNum, num, perp, cross, dot3, nsq3, Pi.add_apply, Pi.sub_apply, Pi.neg_apply, Pi.zero_apply, Matrix.cons_val_zero, Matrix.cons_val_one, Matrix.cons_val]
  ring

theorem half010 (e0 e1 d : V 3) : halfDer e0 e1 (-d) (-d) 0 0 = halfNum e0 e1 0 1 0 0 * d 0 + halfNum e0 e1 0 1 0 1 * d 1 + halfNum e0 e1 0 1 0 2 * d 2 := by
  simp only [halfDer, halfNum, num, perp, cross, dot3, nsq3, Pi.add_apply, Pi.sub_apply, Pi.neg_apply, Pi.zero_apply, Matrix.cons_val_zero, Matrix.cons_val_one, Matrix.cons_val]
  ring

theorem half011 (e0 e1 d : V 3) : halfDer e0 e1 (-d) (-d) 0 1 = halfNum e0 e1 0 1 1 0 * d 0 + halfNum e0 e1 0 1 1 1 * d 1 + halfNum e0 e1 0 1 1 2 * d 2 := by
  simp only [halfDer, halfNum, num, perp, cross, dot3, nsq3, Pi.add_apply, Pi.sub_apply, Pi.neg_apply, Pi.zero_apply, Matrix.cons_val_zero, Matrix.cons_val_one, Matrix.cons_val]
  ring

theorem half012 (e0 e1 d : V 3) : halfDer e0 e1 (-d) (-d) 0 2 = halfNum e0 e1 0 1 2 0 * d 0 + halfNum e0 e1 0 1 2 1 * d 1 + halfNum e0 e1 0 1 2 2 * d 2 := by
  simp only [halfDer, halfNum, num, perp, cross, dot3, nsq3, Pi.add_apply, Pi.sub_apply, Pi.neg_apply, Pi.zero_apply, Matrix.cons_val_zero, Matrix.cons_val_one, Matrix.cons_val]
  ring

theorem half020 (e0 e1 d : V 3) : halfDer e0 e1 d 0 0 0 = halfNum e0 e1 0 2 0 0 * d 0 + halfNum e0 e1 0 2 0 1 * d 1 + halfNum e0 e1 0 2 0 2 * d 2 := by
  simp only [halfDer, halfNum, num, perp, cross, dot3, nsq3, Pi.add_apply, Pi.sub_apply, Pi.neg_apply, Pi.zero_apply, Matrix.cons_val_zero, Matrix.cons_val_one, Matrix.cons_val]
  ring

theorem half021 (e0 e1 d : V 3) : halfDer e0 e1 d 0 0 1 = halfNum e0 e1 0 2 1 0 * d 0 + halfNum e0 e1 0 2 1 1 * d 1 + halfNum e0 e1 0 2 1 2 * d 2 := by
  simp only [halfDer, halfNum, num, perp, cross, dot3, nsq3, Pi.add_apply, Pi.sub_apply, Pi.neg_apply, Pi.zero_apply, Matrix.cons_val_zero, Matrix.cons_val_one, Matrix.cons_val]
  ring

theorem half022 (e0 e1 d : V 3) : halfDer e0 e1 d 0 0 2 = halfNum e0 e1 0 2 2 0 * d 0 + halfNum e0 e1 0 2 2 1 * d 1 + halfNum e0 e1 0 2 2 2 * d 2 := by
  simp only [halfDer, halfNum, num, perp, cross, dot3, nsq3, Pi.add_apply, Pi.sub_apply, Pi.neg_apply, Pi.zero_apply, Matrix.cons_val_zero, Matrix.cons_val_one, Matrix.cons_val]
  ring

theorem half100 (e0 e1 d : V 3) : halfDer e0 e1 0 d 1 0 = halfNum e0 e1 1 0 0 0 * d 0 + halfNum e0 e1 1 0 0 1 * d 1 + halfNum e0 e1 1 0 0 2 * d 2 := by
  simp only [halfDer, halfNum, num, perp, cross, dot3, nsq3, Pi.add_apply, Pi.sub_apply, Pi.neg_apply, Pi.zero_apply, Matrix.cons_val_zero, Matrix.cons_val_one, Matrix.cons_val]
  ring

theorem half101 (e0 e1 d : V 3) : halfDer e0 e1 0 d 1 1 = halfNum e0 e1 1 0 1 0 * d 0 + halfNum e0 e1 1 0 1 1 * d 1 + halfNum e0 e1 1 0 1 2 * d 2 := by
  simp only [halfDer, halfNum, num, perp, cross, dot3, nsq3, Pi.add_apply, Pi.sub_apply, Pi.neg_apply, Pi.zero_apply, Matrix.cons_val_zero, Matrix.cons_val_one, Matrix.cons_val]
  ring

theorem half102 (e0 e1 d : V 3) : halfDer e0 e1 0 d 1 2 = halfNum e0 e1 1 0 2 0 * d 0 + halfNum e0 e1 1 0 2 1 * d 1 + halfNum e0 e1 1 0 2 2 * d 2 := by
  simp only [halfDer, halfNum, num, perp, cross, dot3, nsq3, Pi.add_apply, Pi.sub_apply, Pi.neg_apply, Pi.zero_apply, Matrix.cons_val_zero, Matrix.cons_val_one, Matrix.cons_val]
  ring

theorem half110 (e0 e1 d : V 3) : halfDer e0 e1 (-d) (-d) 1 0 = halfNum e0 e1 1 1 0 0 * d 0 + halfNum e0 e1 1 1 0 1 * d 1 + halfNum e0 e1 1 1 0 2 * d 2 := by
  simp only [halfDer, halfNum, num, perp, cross, dot3, nsq3, Pi.add_apply, Pi.sub_apply, Pi.neg_apply, Pi.zero_apply, Matrix.cons_val_zero, Matrix.cons_val_one, Matrix.cons_val]
  ring

theorem half111 (e0 e1 d : V 3) : halfDer e0 e1 (-d) (-d) 1 1 = halfNum e0 e1 1 1 1 0 * d 0 + halfNum e0 e1 1 1 1 1 * d 1 + halfNum e0 e1 1 1 1 2 * d 2 := by
  simp only [halfDer, halfNum, num, perp, cross, dot3, nsq3, Pi.add_apply, Pi.sub_apply, Pi.neg_apply, Pi.zero_apply, Matrix.cons_val_zero, Matrix.cons_val_one, Matrix.cons_val]
  ring

theorem half112 (e0 e1 d : V 3) : halfDer e0 e1 (-d) (-d) 1 2 = halfNum e0 e1 1 1 2 0 * d 0 + halfNum e0 e1 1 1 2 1 * d 1 + halfNum e0 e1 1 1 2 2 * d 2 := by
  simp only [halfDer, halfNum, num, perp, cross, dot3, nsq3, Pi.add_apply, Pi.sub_apply, Pi.neg_apply, Pi.zero_apply, Matrix.cons_val_zero, Matrix.cons_val_one, Matrix.cons_val]
  ring

theorem half120 (e0 e1 d : V 3) : halfDer e0 e1 d 0 1 0 = halfNum e0 e1 1 2 0 0 * d 0 + halfNum e0 e1 1 2 0 1 * d 1 + halfNum e0 e1 1 2 0 2 * d 2 := by
  simp only [halfDer, halfNum, num, perp, cross, dot3, nsq3, Pi.add_apply, Pi.sub_apply, Pi.neg_apply, Pi.zero_apply, Matrix.cons_val_zero, Matrix.cons_val_one, Matrix.cons_val]
  ring

theorem half121 (e0 e1 d : V 3) : halfDer e0 e1 d 0 1 1 = halfNum e0 e1 1 2 1 0 * d 0 + halfNum e0 e1 1 2 1 1 * d 1 + halfNum e0 e1 1 2 1 2 * d 2 := by
  simp only [halfDer, halfNum, num, perp, cross, dot3, nsq3, Pi.add_apply, Pi.sub_apply, Pi.neg_apply, Pi.zero_apply, Matrix.cons_val_zero, Matrix.cons_val_one, Matrix.cons_val]
  ring

theorem half122 (e0 e1 d : V 3) : halfDer e0 e1 d 0 1 2 = halfNum e0 e1 1 2 2 0 * d 0 + halfNum e0 e1 1 2 2 1 * d 1 + halfNum e0 e1 1 2 2 2 * d 2 := by
  simp only [halfDer, halfNum, num, perp, cross, dot3, nsq3, Pi.add_apply, Pi.sub_apply, Pi.neg_apply, Pi.zero_apply, Matrix.cons_val_zero, Matrix.cons_val_one, Matrix.cons_val]
  ring

theorem half200 (e0 e1 d : V 3) : halfDer e0 e1 0 d 2 0 = halfNum e0 e1 2 0 0 0 * d 0 + halfNum e0 e1 2 0 0 1 * d 1 + halfNum e0 e1 2 0 0 2 * d 2 := by
  simp only [halfDer, halfNum, num, perp, cross, dot3, nsq3, Pi.add_apply, Pi.sub_apply, Pi.neg_apply, Pi.zero_apply, Matrix.cons_val_zero, Matrix.cons_val_one, Matrix.cons_val]
  ring

theorem half201 (e0 e1 d : V 3) : halfDer e0 e1 0 d 2 1 = halfNum e0 e1 2 0 1 0 * d 0 + halfNum e0 e1 2 0 1 1 * d 1 + halfNum e0 e1 2 0 1 2 * d 2 := by
  simp only [halfDer, halfNum, num, perp, cross, dot3, nsq3, Pi.add_apply, Pi.sub_apply, Pi.neg_apply, Pi.zero_apply, Matrix.cons_val_zero, Matrix.cons_val_one, Matrix.cons_val]
  ring

theorem half202 (e0 e1 d : V 3) : halfDer e0 e1 0 d 2 2 = halfNum e0 e1 2 0 2 0 * d 0 + halfNum e0 e1 2 0 2 1 * d 1 + halfNum e0 e1 2 0 2 2 * d 2 := by
  simp only [halfDer, halfNum, num, perp, cross, dot3, nsq3, Pi.add_apply, Pi.sub_apply, Pi.neg_apply, Pi.zero_apply, Matrix.cons_val_zero, Matrix.cons_val_one, Matrix.cons_val]
  ring

theorem half210 (e0 e1 d : V 3) : halfDer e0 e1 (-d) (-d) 2 0 = halfNum e0 e1 2 1 0 0 * d 0 + halfNum e0 e1 2 1 0 1 * d 1 + halfNum e0 e1 2 1 0 2 * d 2 + nsq3 (cross e0 e1) * (dot3 (perp e1 e0) d * cross e0 e1 0 - dot3 (cross e0 e1) d * perp e1 e0 0) := by
  simp only [halfDer, halfNum, num, perp, cross, dot3, nsq3, Pi.add_apply, Pi.sub_apply, Pi.neg_apply, Pi.zero_apply, Matrix.cons_val_zero, Matrix.cons_val_one, Matrix.cons_val]
  ring

theorem half211 (e0 e1 d : V 3) : halfDer e0 e1 (-d) (-d) 2 1 = halfNum e0 e1 2 1 1 0 * d 0 + halfNum e0 e1 2 1 1 1 * d 1 + halfNum e0 e1 2 1 1 2 * d 2 + nsq3 (cross e0 e1) * (dot3 (perp e1 e0) d * cross e0 e1 1 - dot3 (cross e0 e1) d * perp e1 e0 1) := by
  simp only [halfDer, halfNum, num, perp, cross, dot3, nsq3, Pi.add_apply, Pi.sub_apply, Pi.neg_apply, Pi.zero_apply, Matrix.cons_val_zero, Matrix.cons_val_one, Matrix.cons_val]
  ring

theorem half212 (e0 e1 d : V 3) : halfDer e0 e1 (-d) (-d) 2 2 = halfNum e0 e1 2 1 2 0 * d 0 + halfNum e0 e1 2 1 2 1 * d 1 + halfNum e0 e1 2 1 2 2 * d 2 + nsq3 (cross e0 e1) * (dot3 (perp e1 e0) d * cross e0 e1 2 - dot3 (cross e0 e1) d * perp e1 e0 2) := by
  simp only [halfDer, halfNum, num, perp, cross, dot3, nsq3, Pi.add_apply, Pi.sub_apply, Pi.neg_apply, Pi.zero_apply, Matrix.cons_val_zero, Matrix.cons_val_one, Matrix.cons_val]
  ring

theorem half220 (e0 e1 d : V 3) : halfDer e0 e1 d 0 2 0 = halfNum e0 e1 2 2 0 0 * d 0 + halfNum e0 e1 2 2 0 1 * d 1 + halfNum e0 e1 2 2 0 2 * d 2 := by
  simp only [halfDer, halfNum, num, perp, cross, dot3, nsq3, Pi.add_apply, Pi.sub_apply, Pi.neg_apply, Pi.zero_apply, Matrix.cons_val_zero, Matrix.cons_val_one, Matrix.cons_val]
  ring

theorem half221 (e0 e1 d : V 3) : halfDer e0 e1 d 0 2 1 = halfNum e0 e1 2 2 1 0 * d 0 + halfNum e0 e1 2 2 1 1 * d 1 + halfNum e0 e1 2 2 1 2 * d 2 := by
  simp only [halfDer, halfNum, num, perp, cross, dot3, nsq3, Pi.add_apply, Pi.sub_apply, Pi.neg_apply, Pi.zero_apply, Matrix.cons_val_zero, Matrix.cons_val_one, Matrix.cons_val]
  ring

theorem half222 (e0 e1 d : V 3) : halfDer e0 e1 d 0 2 2 = halfNum e0 e1 2 2 2 0 * d 0 + halfNum e0 e1 2 2 2 1 * d 1 + halfNum e0 e1 2 2 2 2 * d 2 := by
  simp only [halfDer, halfNum, num, perp, cross, dot3, nsq3, Pi.add_apply, Pi.sub_apply, Pi.neg_apply, Pi.zero_apply, Matrix.cons_val_zero, Matrix.cons_val_one, Matrix.cons_val]
  ring

end Verif.Dihedral
