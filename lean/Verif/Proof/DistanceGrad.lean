import Verif.Proof.DistanceEdge
import Mathlib.Analysis.Calculus.Deriv.Pow
import Mathlib.Analysis.Calculus.Deriv.Inv
import Mathlib.Analysis.SpecialFunctions.Log.Deriv

/-!
Helper lemmas: gradients of the distances.  The functions `...Aux` are copies of the code with two intermediate results as parameters.
-/
namespace Verif.Dist

open Verif.Mat (Store)
open Verif.Elastic (IsPartials)

theorem upd_self (x : Store ℝ) (i : Nat) : Mat.upd x i (x i) = x := by
  funext k; unfold Mat.upd; split_ifs with e
  · rw [e]
  · rfl

theorem quot_getD (x y : ℝ) : (quot x y).getD 0 = x / y := by
  unfold quot; split_ifs with h
  · rw [h, div_zero]; rfl
  · rfl

/-- The derivative of a quotient of sums of squares of affine functions. -/
theorem quot3 {A0 A1 A2 B0 B1 B2 : ℝ → ℝ} {a0 a1 a2 b0 b1 b2 x : ℝ} (hA0 : ∀ y, A0 y = A0 x + a0 * (y - x)) (hA1 : ∀ y, A1 y = A1 x + a1 * (y - x))
    (hA2 : ∀ y, A2 y = A2 x + a2 * (y - x)) (hB0 : ∀ y, B0 y = B0 x + b0 * (y - x)) (hB1 : ∀ y, B1 y = B1 x + b1 * (y - x))
    (hB2 : ∀ y, B2 y = B2 x + b2 * (y - x)) (h : B0 x ^ 2 + B1 x ^ 2 + B2 x ^ 2 ≠ 0) :
    HasDerivAt (fun y => (A0 y ^ 2 + A1 y ^ 2 + A2 y ^ 2) / (B0 y ^ 2 + B1 y ^ 2 + B2 y ^ 2))
      (2 * (A0 x * a0 + A1 x * a1 + A2 x * a2) * (1 / (B0 x ^ 2 + B1 x ^ 2 + B2 x ^ 2))
        - (A0 x ^ 2 + A1 x ^ 2 + A2 x ^ 2) * (2 * (B0 x * b0 + B1 x * b1 + B2 x * b2)) * (1 / (B0 x ^ 2 + B1 x ^ 2 + B2 x ^ 2)) ^ 2) x := by
  have aff : ∀ {F : ℝ → ℝ} {f : ℝ}, (∀ y, F y = F x + f * (y - x)) → HasDerivAt F f x := by
    intro F f hF
    have : F = fun y => F x + f * (y - x) := funext hF
    rw [this]
    have := (((hasDerivAt_id x).sub_const x).const_mul f).const_add (F x)
    simpa using this
  have d := ((((aff hA0).fun_pow 2).add ((aff hA1).fun_pow 2)).add ((aff hA2).fun_pow 2)).div ((((aff hB0).fun_pow 2).add ((aff hB1).fun_pow 2)).add ((aff hB2).fun_pow 2)) h
  refine d.congr_deriv ?_
  simp only [Pi.add_apply]
  generalize hR : B0 x ^ 2 + B1 x ^ 2 + B2 x ^ 2 = R at *
  field_simp
  push_cast
  ring

noncomputable def gPe2Aux (x : Store ℝ) (t23 t25 : ℝ) : Store ℝ :=
  let v01 := x 0
  let v02 := x 1
  let v11 := x 2
  let v12 := x 3
  let v21 := x 4
  let v22 := x 5
  let t13 := -v21 + v11
  let t14 := -v22 + v12
  let t24 := t23 * t23
  let t26 := t25 * t25
  let t27 := (v11 * 2 + -(v21 * 2)) * t24 * t26
  let t26 := t26 * ((v12 * 2 + -(v22 * 2)) * t24)
  let g0 := t14 * t23 * t25 * 2
  let g1 := t13 * t23 * t25 * -2
  let t24 := t23 * t25
  let g2 := -t27 - t24 * (-v22 + v02) * 2
  let g3 := -t26 + t24 * (-v21 + v01) * 2
  let g4 := t27 + t24 * (v02 - v12) * 2
  let g5 := t26 - t24 * (v01 - v11) * 2
  Mat.write [g0, g1, g2, g3, g4, g5]

noncomputable def gPe3Aux (x : Store ℝ) (t42 t50 : ℝ) : Store ℝ :=
  let v01 := x 0
  let v02 := x 1
  let v03 := x 2
  let v11 := x 3
  let v12 := x 4
  let v13 := x 5
  let v21 := x 6
  let v22 := x 7
  let v23 := x 8
  let t17 := -v11 + v01
  let t18 := -v12 + v02
  let t19 := -v13 + v03
  let t20 := -v21 + v01
  let t21 := -v22 + v02
  let t22 := -v23 + v03
  let t23 := -v21 + v11
  let t24 := -v22 + v12
  let t25 := -v23 + v13
  let t44 := t17 * t21 + -(t18 * t20)
  let t45 := t17 * t22 + -(t19 * t20)
  let t46 := t18 * t22 + -(t19 * t21)
  let t43 := t42 * t42
  let t51 := (v11 * 2 + -(v21 * 2)) * t43 * t50
  let t52 := (v12 * 2 + -(v22 * 2)) * t43 * t50
  let t43 := (v13 * 2 + -(v23 * 2)) * t43 * t50
  let g0 := t42 * (t24 * t44 * 2 + t25 * t45 * 2)
  let g1 := -t42 * (t23 * t44 * 2 - t25 * t46 * 2)
  let g2 := -t42 * (t23 * t45 * 2 + t24 * t46 * 2)
  let g3 := -t51 - t42 * (t21 * t44 * 2 + t22 * t45 * 2)
  let g4 := -t52 + t42 * (t20 * t44 * 2 - t22 * t46 * 2)
  let g5 := -t43 + t42 * (t20 * t45 * 2 + t21 * t46 * 2)
  let g6 := t51 + t42 * (t18 * t44 * 2 + t19 * t45 * 2)
  let g7 := t52 - t42 * (t17 * t44 * 2 - t19 * t46 * 2)
  let g8 := t43 - t42 * (t17 * t45 * 2 + t18 * t46 * 2)
  Mat.write [g0, g1, g2, g3, g4, g5, g6, g7, g8]

noncomputable def gEeAux (x : Store ℝ) (t75 t77 : ℝ) : Store ℝ :=
  let v01 := x 0
  let v02 := x 1
  let v03 := x 2
  let v11 := x 3
  let v12 := x 4
  let v13 := x 5
  let v21 := x 6
  let v22 := x 7
  let v23 := x 8
  let v31 := x 9
  let v32 := x 10
  let v33 := x 11
  let t11 := -v11 + v01
  let t12 := -v12 + v02
  let t13 := -v13 + v03
  let t14 := -v21 + v01
  let t15 := -v22 + v02
  let t16 := -v23 + v03
  let t17 := -v31 + v21
  let t18 := -v32 + v22
  let t19 := -v33 + v23
  let t32 := t14 * t18
  let t33 := t15 * t17
  let t34 := t14 * t19
  let t35 := t16 * t17
  let t36 := t15 * t19
  let t37 := t16 * t18
  let t44 := t11 * t18 + -(t12 * t17)
  let t45 := t11 * t19 + -(t13 * t17)
  let t46 := t12 * t19 + -(t13 * t18)
  let t76 := t75 * t75
  let t78 := t77 * t77
  let t79 := (t12 * t44 * 2 + t13 * t45 * 2) * t76 * t78
  let t80 := (t11 * t45 * 2 + t12 * t46 * 2) * t76 * t78
  let t81 := (t18 * t44 * 2 + t19 * t45 * 2) * t76 * t78
  let t18 := (t17 * t45 * 2 + t18 * t46 * 2) * t76 * t78
  let t83 := (t11 * t44 * 2 + -(t13 * t46 * 2)) * t76 * t78
  let t19 := (t17 * t44 * 2 + -(t19 * t46 * 2)) * t76 * t78
  let t76 := t75 * t77
  let g0 := -t81 + t76 * ((-t36 + t37) + t46) * 2
  let g1 := t19 - t76 * ((-t34 + t35) + t45) * 2
  let g2 := t18 + t76 * ((-t32 + t33) + t44) * 2
  let g3 := t81 + t76 * (t36 - t37) * 2
  let g4 := -t19 - t76 * (t34 - t35) * 2
  let g5 := -t18 + t76 * (t32 - t33) * 2
  let t17 := t12 * t16 + -(t13 * t15)
  let g6 := t79 - t76 * (t17 + t46) * 2
  let t18 := t11 * t16 + -(t13 * t14)
  let g7 := -t83 + t76 * (t18 + t45) * 2
  let t19 := t11 * t15 + -(t12 * t14)
  let g8 := -t80 - t76 * (t19 + t44) * 2
  let g9 := -t79 + t76 * t17 * 2
  let g10 := t83 - t76 * t18 * 2
  let g11 := t80 + t76 * t19 * 2
  Mat.write [g0, g1, g2, g3, g4, g5, g6, g7, g8, g9, g10, g11]

noncomputable def gPtAux (x : Store ℝ) (t43 t45 : ℝ) : Store ℝ :=
  let v01 := x 0
  let v02 := x 1
  let v03 := x 2
  let v11 := x 3
  let v12 := x 4
  let v13 := x 5
  let v21 := x 6
  let v22 := x 7
  let v23 := x 8
  let v31 := x 9
  let v32 := x 10
  let v33 := x 11
  let t11 := -v11 + v01
  let t12 := -v12 + v02
  let t13 := -v13 + v03
  let t14 := -v21 + v11
  let t15 := -v22 + v12
  let t16 := -v23 + v13
  let t17 := -v31 + v11
  let t18 := -v32 + v12
  let t19 := -v33 + v13
  let t20 := -v31 + v21
  let t21 := -v32 + v22
  let t22 := -v33 + v23
  let t32 := t14 * t18 + -(t15 * t17)
  let t33 := t14 * t19 + -(t16 * t17)
  let t34 := t15 * t19 + -(t16 * t18)
  let t44 := t43 * t43
  let t46 := t45 * t45
  let g0 := t34 * t43 * t45 * 2
  let g1 := t33 * t43 * t45 * -2
  let g2 := t32 * t43 * t45 * 2
  let t45 := t45 * (t43)
  let g3 := -t44 * t46 * (t21 * t32 * 2 + t22 * t33 * 2) - t45 * ((t34 + t12 * t22) - t13 * t21) * 2
  let t43 := t44 * t46
  let g4 := t43 * (t20 * t32 * 2 - t22 * t34 * 2) + t45 * ((t33 + t11 * t22) - t13 * t20) * 2
  let g5 := t43 * (t20 * t33 * 2 + t21 * t34 * 2) - t45 * ((t32 + t11 * t21) - t12 * t20) * 2
  let g6 := t45 * (t12 * t19 - t13 * t18) * 2 + t43 * (t18 * t32 * 2 + t19 * t33 * 2)
  let g7 := t45 * (t11 * t19 - t13 * t17) * -2 - t43 * (t17 * t32 * 2 - t19 * t34 * 2)
  let g8 := t45 * (t11 * t18 - t12 * t17) * 2 - t43 * (t17 * t33 * 2 + t18 * t34 * 2)
  let g9 := t45 * (t12 * t16 - t13 * t15) * -2 - t43 * (t15 * t32 * 2 + t16 * t33 * 2)
  let g10 := t45 * (t11 * t16 - t13 * t14) * 2 + t43 * (t14 * t32 * 2 - t16 * t34 * 2)
  let g11 := t45 * (t11 * t15 - t12 * t14) * -2 + t43 * (t14 * t33 * 2 + t15 * t34 * 2)
  Mat.write [g0, g1, g2, g3, g4, g5, g6, g7, g8, g9, g10, g11]

noncomputable def nPe20 (x : Store ℝ) : ℝ := -((x 5 - x 3) * x 0 - (x 4 - x 2) * x 1 + x 4 * x 3 - x 5 * x 2)

noncomputable def nPe21 (x : Store ℝ) : ℝ := 0

noncomputable def nPe22 (x : Store ℝ) : ℝ := 0

noncomputable def dPe20 (x : Store ℝ) : ℝ := x 4 - x 2

noncomputable def dPe21 (x : Store ℝ) : ℝ := x 5 - x 3

noncomputable def dPe22 (x : Store ℝ) : ℝ := 0

theorem nPe20_aff (x : Store ℝ) (i : Nat) (hi : i < 6) (y : ℝ) : nPe20 (Mat.upd x i y) = nPe20 (Mat.upd x i (x i)) + (nPe20 (Mat.upd x i (x i + 1)) - nPe20 x) * (y - x i) := by
  unfold nPe20; interval_cases i <;> simp [Mat.upd] <;> ring

theorem nPe21_aff (x : Store ℝ) (i : Nat) (hi : i < 6) (y : ℝ) : nPe21 (Mat.upd x i y) = nPe21 (Mat.upd x i (x i)) + (nPe21 (Mat.upd x i (x i + 1)) - nPe21 x) * (y - x i) := by
  unfold nPe21; interval_cases i <;> simp [Mat.upd] <;> ring

theorem nPe22_aff (x : Store ℝ) (i : Nat) (hi : i < 6) (y : ℝ) : nPe22 (Mat.upd x i y) = nPe22 (Mat.upd x i (x i)) + (nPe22 (Mat.upd x i (x i + 1)) - nPe22 x) * (y - x i) := by
  unfold nPe22; interval_cases i <;> simp [Mat.upd] <;> ring

theorem dPe20_aff (x : Store ℝ) (i : Nat) (hi : i < 6) (y : ℝ) : dPe20 (Mat.upd x i y) = dPe20 (Mat.upd x i (x i)) + (dPe20 (Mat.upd x i (x i + 1)) - dPe20 x) * (y - x i) := by
  unfold dPe20; interval_cases i <;> simp [Mat.upd] <;> ring

theorem dPe21_aff (x : Store ℝ) (i : Nat) (hi : i < 6) (y : ℝ) : dPe21 (Mat.upd x i y) = dPe21 (Mat.upd x i (x i)) + (dPe21 (Mat.upd x i (x i + 1)) - dPe21 x) * (y - x i) := by
  unfold dPe21; interval_cases i <;> simp [Mat.upd] <;> ring

theorem dPe22_aff (x : Store ℝ) (i : Nat) (hi : i < 6) (y : ℝ) : dPe22 (Mat.upd x i y) = dPe22 (Mat.upd x i (x i)) + (dPe22 (Mat.upd x i (x i + 1)) - dPe22 x) * (y - x i) := by
  unfold dPe22; interval_cases i <;> simp [Mat.upd] <;> ring

theorem fPe2_eq (x : Store ℝ) : (line2 (point 2 x 0) (point 2 x 1) (point 2 x 2)).getD 0 = (nPe20 x ^ 2 + nPe21 x ^ 2 + nPe22 x ^ 2) / (dPe20 x ^ 2 + dPe21 x ^ 2 + dPe22 x ^ 2) := by
  unfold line2; try simp only []
  rw [quot_getD]; congr 1
  all_goals simp only [dot3, norm3, norm2, cross_0, cross_1, cross_2, sub, point, nPe20, nPe21, nPe22, dPe20, dPe21, dPe22]; ring

theorem gPe2_aux (x : Store ℝ) : gPe2 x = gPe2Aux x (1 / (dPe20 x ^ 2 + dPe21 x ^ 2 + dPe22 x ^ 2)) (nPe20 x) := by
  have e : ∀ r T r' T', r = r' → T = T' → gPe2Aux x r T = gPe2Aux x r' T' := fun r T r' T' h k => by rw [h, k]
  refine e _ _ _ _ ?_ ?_
  · congr 1; simp only [dPe20, dPe21, dPe22]; ring
  · simp only [nPe20, nPe21, nPe22]; ring

theorem gPe2_partials (x : Store ℝ) (h : dPe20 x ^ 2 + dPe21 x ^ 2 + dPe22 x ^ 2 ≠ 0) : IsPartials 6 (fun x => (nPe20 x ^ 2 + nPe21 x ^ 2 + nPe22 x ^ 2) / (dPe20 x ^ 2 + dPe21 x ^ 2 + dPe22 x ^ 2)) x (gPe2 x) := by
  intro i hi
  have hx := upd_self x i
  have k := quot3 (nPe20_aff x i hi) (nPe21_aff x i hi) (nPe22_aff x i hi) (dPe20_aff x i hi) (dPe21_aff x i hi) (dPe22_aff x i hi) (by rw [hx]; exact h)
  refine k.congr_deriv ?_
  clear k
  rw [hx]
  rw [gPe2_aux]
  generalize 1 / (dPe20 x ^ 2 + dPe21 x ^ 2 + dPe22 x ^ 2) = r
  have z : nPe21 x = 0 ∧ nPe22 x = 0 := ⟨rfl, rfl⟩
  rw [z.1, z.2]
  have key : ∀ T : ℝ, gPe2Aux x r T i = 2 * (T * (nPe20 (Mat.upd x i (x i + 1)) - nPe20 x)) * r - T ^ 2 * (2 * (dPe20 x * (dPe20 (Mat.upd x i (x i + 1)) - dPe20 x) + dPe21 x * (dPe21 (Mat.upd x i (x i + 1)) - dPe21 x) + dPe22 x * (dPe22 (Mat.upd x i (x i + 1)) - dPe22 x))) * r ^ 2 := by
    intro T
    unfold gPe2Aux
    interval_cases i <;> simp [Mat.write, nPe20, nPe21, nPe22, dPe20, dPe21, dPe22, Mat.upd] <;> ring
  rw [key]; ring

noncomputable def nPe30 (x : Store ℝ) : ℝ := (x 4 - x 1) * (x 8 - x 2) - (x 5 - x 2) * (x 7 - x 1)

noncomputable def nPe31 (x : Store ℝ) : ℝ := (x 5 - x 2) * (x 6 - x 0) - (x 3 - x 0) * (x 8 - x 2)

noncomputable def nPe32 (x : Store ℝ) : ℝ := (x 3 - x 0) * (x 7 - x 1) - (x 4 - x 1) * (x 6 - x 0)

noncomputable def dPe30 (x : Store ℝ) : ℝ := (x 6 - x 3)

noncomputable def dPe31 (x : Store ℝ) : ℝ := (x 7 - x 4)

noncomputable def dPe32 (x : Store ℝ) : ℝ := (x 8 - x 5)

theorem nPe30_aff (x : Store ℝ) (i : Nat) (hi : i < 9) (y : ℝ) : nPe30 (Mat.upd x i y) = nPe30 (Mat.upd x i (x i)) + (nPe30 (Mat.upd x i (x i + 1)) - nPe30 x) * (y - x i) := by
  unfold nPe30; interval_cases i <;> simp [Mat.upd] <;> ring

theorem nPe31_aff (x : Store ℝ) (i : Nat) (hi : i < 9) (y : ℝ) : nPe31 (Mat.upd x i y) = nPe31 (Mat.upd x i (x i)) + (nPe31 (Mat.upd x i (x i + 1)) - nPe31 x) * (y - x i) := by
  unfold nPe31; interval_cases i <;> simp [Mat.upd] <;> ring

theorem nPe32_aff (x : Store ℝ) (i : Nat) (hi : i < 9) (y : ℝ) : nPe32 (Mat.upd x i y) = nPe32 (Mat.upd x i (x i)) + (nPe32 (Mat.upd x i (x i + 1)) - nPe32 x) * (y - x i) := by
  unfold nPe32; interval_cases i <;> simp [Mat.upd] <;> ring

theorem dPe30_aff (x : Store ℝ) (i : Nat) (hi : i < 9) (y : ℝ) : dPe30 (Mat.upd x i y) = dPe30 (Mat.upd x i (x i)) + (dPe30 (Mat.upd x i (x i + 1)) - dPe30 x) * (y - x i) := by
  unfold dPe30; interval_cases i <;> simp [Mat.upd] <;> ring

theorem dPe31_aff (x : Store ℝ) (i : Nat) (hi : i < 9) (y : ℝ) : dPe31 (Mat.upd x i y) = dPe31 (Mat.upd x i (x i)) + (dPe31 (Mat.upd x i (x i + 1)) - dPe31 x) * (y - x i) := by
  unfold dPe31; interval_cases i <;> simp [Mat.upd] <;> ring

theorem dPe32_aff (x : Store ℝ) (i : Nat) (hi : i < 9) (y : ℝ) : dPe32 (Mat.upd x i y) = dPe32 (Mat.upd x i (x i)) + (dPe32 (Mat.upd x i (x i + 1)) - dPe32 x) * (y - x i) := by
  unfold dPe32; interval_cases i <;> simp [Mat.upd] <;> ring

theorem fPe3_eq (x : Store ℝ) : (line3 (point 3 x 0) (point 3 x 1) (point 3 x 2)).getD 0 = (nPe30 x ^ 2 + nPe31 x ^ 2 + nPe32 x ^ 2) / (dPe30 x ^ 2 + dPe31 x ^ 2 + dPe32 x ^ 2) := by
  unfold line3; try simp only []
  rw [quot_getD]; congr 1
  all_goals simp only [dot3, norm3, norm2, cross_0, cross_1, cross_2, sub, point, nPe30, nPe31, nPe32, dPe30, dPe31, dPe32]; ring

theorem gPe3_aux (x : Store ℝ) : gPe3 x = gPe3Aux x (1 / (dPe30 x ^ 2 + dPe31 x ^ 2 + dPe32 x ^ 2)) ((nPe30 x ^ 2 + nPe31 x ^ 2 + nPe32 x ^ 2)) := by
  have e : ∀ r T r' T', r = r' → T = T' → gPe3Aux x r T = gPe3Aux x r' T' := fun r T r' T' h k => by rw [h, k]
  refine e _ _ _ _ ?_ ?_
  · congr 1; simp only [dPe30, dPe31, dPe32]; ring
  · simp only [nPe30, nPe31, nPe32]; ring

theorem gPe3_partials (x : Store ℝ) (h : dPe30 x ^ 2 + dPe31 x ^ 2 + dPe32 x ^ 2 ≠ 0) : IsPartials 9 (fun x => (nPe30 x ^ 2 + nPe31 x ^ 2 + nPe32 x ^ 2) / (dPe30 x ^ 2 + dPe31 x ^ 2 + dPe32 x ^ 2)) x (gPe3 x) := by
  intro i hi
  have hx := upd_self x i
  have k := quot3 (nPe30_aff x i hi) (nPe31_aff x i hi) (nPe32_aff x i hi) (dPe30_aff x i hi) (dPe31_aff x i hi) (dPe32_aff x i hi) (by rw [hx]; exact h)
  refine k.congr_deriv ?_
  clear k
  rw [hx]
  rw [gPe3_aux]
  generalize 1 / (dPe30 x ^ 2 + dPe31 x ^ 2 + dPe32 x ^ 2) = r
  generalize hT : nPe30 x ^ 2 + nPe31 x ^ 2 + nPe32 x ^ 2 = T
  unfold gPe3Aux
  interval_cases i <;> simp [Mat.write, nPe30, nPe31, nPe32, dPe30, dPe31, dPe32, Mat.upd] <;> ring

noncomputable def nEe0 (x : Store ℝ) : ℝ := -((x 6 - x 0) * ((x 4 - x 1) * (x 11 - x 8) - (x 5 - x 2) * (x 10 - x 7)) + (x 7 - x 1) * ((x 5 - x 2) * (x 9 - x 6) - (x 3 - x 0) * (x 11 - x 8)) + (x 8 - x 2) * ((x 3 - x 0) * (x 10 - x 7) - (x 4 - x 1) * (x 9 - x 6)))

noncomputable def nEe1 (x : Store ℝ) : ℝ := 0

noncomputable def nEe2 (x : Store ℝ) : ℝ := 0

noncomputable def dEe0 (x : Store ℝ) : ℝ := (x 4 - x 1) * (x 11 - x 8) - (x 5 - x 2) * (x 10 - x 7)

noncomputable def dEe1 (x : Store ℝ) : ℝ := (x 5 - x 2) * (x 9 - x 6) - (x 3 - x 0) * (x 11 - x 8)

noncomputable def dEe2 (x : Store ℝ) : ℝ := (x 3 - x 0) * (x 10 - x 7) - (x 4 - x 1) * (x 9 - x 6)

theorem nEe0_aff (x : Store ℝ) (i : Nat) (hi : i < 12) (y : ℝ) : nEe0 (Mat.upd x i y) = nEe0 (Mat.upd x i (x i)) + (nEe0 (Mat.upd x i (x i + 1)) - nEe0 x) * (y - x i) := by
  unfold nEe0; interval_cases i <;> simp [Mat.upd] <;> ring

theorem nEe1_aff (x : Store ℝ) (i : Nat) (hi : i < 12) (y : ℝ) : nEe1 (Mat.upd x i y) = nEe1 (Mat.upd x i (x i)) + (nEe1 (Mat.upd x i (x i + 1)) - nEe1 x) * (y - x i) := by
  unfold nEe1; interval_cases i <;> simp [Mat.upd] <;> ring

theorem nEe2_aff (x : Store ℝ) (i : Nat) (hi : i < 12) (y : ℝ) : nEe2 (Mat.upd x i y) = nEe2 (Mat.upd x i (x i)) + (nEe2 (Mat.upd x i (x i + 1)) - nEe2 x) * (y - x i) := by
  unfold nEe2; interval_cases i <;> simp [Mat.upd] <;> ring

theorem dEe0_aff (x : Store ℝ) (i : Nat) (hi : i < 12) (y : ℝ) : dEe0 (Mat.upd x i y) = dEe0 (Mat.upd x i (x i)) + (dEe0 (Mat.upd x i (x i + 1)) - dEe0 x) * (y - x i) := by
  unfold dEe0; interval_cases i <;> simp [Mat.upd] <;> ring

theorem dEe1_aff (x : Store ℝ) (i : Nat) (hi : i < 12) (y : ℝ) : dEe1 (Mat.upd x i y) = dEe1 (Mat.upd x i (x i)) + (dEe1 (Mat.upd x i (x i + 1)) - dEe1 x) * (y - x i) := by
  unfold dEe1; interval_cases i <;> simp [Mat.upd] <;> ring

theorem dEe2_aff (x : Store ℝ) (i : Nat) (hi : i < 12) (y : ℝ) : dEe2 (Mat.upd x i y) = dEe2 (Mat.upd x i (x i)) + (dEe2 (Mat.upd x i (x i + 1)) - dEe2 x) * (y - x i) := by
  unfold dEe2; interval_cases i <;> simp [Mat.upd] <;> ring

theorem fEe_eq (x : Store ℝ) : (dist2Ee (point 3 x 0) (point 3 x 1) (point 3 x 2) (point 3 x 3)).getD 0 = (nEe0 x ^ 2 + nEe1 x ^ 2 + nEe2 x ^ 2) / (dEe0 x ^ 2 + dEe1 x ^ 2 + dEe2 x ^ 2) := by
  unfold dist2Ee; try simp only []
  rw [quot_getD]; congr 1
  all_goals simp only [dot3, norm3, norm2, cross_0, cross_1, cross_2, sub, point, nEe0, nEe1, nEe2, dEe0, dEe1, dEe2]; ring

theorem gEe_aux (x : Store ℝ) : gEe x = gEeAux x (1 / (dEe0 x ^ 2 + dEe1 x ^ 2 + dEe2 x ^ 2)) (nEe0 x) := by
  have e : ∀ r T r' T', r = r' → T = T' → gEeAux x r T = gEeAux x r' T' := fun r T r' T' h k => by rw [h, k]
  refine e _ _ _ _ ?_ ?_
  · congr 1; simp only [dEe0, dEe1, dEe2]; ring
  · simp only [nEe0, nEe1, nEe2]; ring

theorem gEe_partials (x : Store ℝ) (h : dEe0 x ^ 2 + dEe1 x ^ 2 + dEe2 x ^ 2 ≠ 0) : IsPartials 12 (fun x => (nEe0 x ^ 2 + nEe1 x ^ 2 + nEe2 x ^ 2) / (dEe0 x ^ 2 + dEe1 x ^ 2 + dEe2 x ^ 2)) x (gEe x) := by
  intro i hi
  have hx := upd_self x i
  have k := quot3 (nEe0_aff x i hi) (nEe1_aff x i hi) (nEe2_aff x i hi) (dEe0_aff x i hi) (dEe1_aff x i hi) (dEe2_aff x i hi) (by rw [hx]; exact h)
  refine k.congr_deriv ?_
  clear k
  rw [hx]
  rw [gEe_aux]
  generalize 1 / (dEe0 x ^ 2 + dEe1 x ^ 2 + dEe2 x ^ 2) = r
  have z : nEe1 x = 0 ∧ nEe2 x = 0 := ⟨rfl, rfl⟩
  rw [z.1, z.2]
  have key : ∀ T : ℝ, gEeAux x r T i = 2 * (T * (nEe0 (Mat.upd x i (x i + 1)) - nEe0 x)) * r - T ^ 2 * (2 * (dEe0 x * (dEe0 (Mat.upd x i (x i + 1)) - dEe0 x) + dEe1 x * (dEe1 (Mat.upd x i (x i + 1)) - dEe1 x) + dEe2 x * (dEe2 (Mat.upd x i (x i + 1)) - dEe2 x))) * r ^ 2 := by
    intro T
    unfold gEeAux
    interval_cases i <;> simp [Mat.write, nEe0, nEe1, nEe2, dEe0, dEe1, dEe2, Mat.upd] <;> ring
  rw [key]; ring

noncomputable def nPt0 (x : Store ℝ) : ℝ := (x 0 - x 3) * ((x 7 - x 4) * (x 11 - x 5) - (x 8 - x 5) * (x 10 - x 4)) + (x 1 - x 4) * ((x 8 - x 5) * (x 9 - x 3) - (x 6 - x 3) * (x 11 - x 5)) + (x 2 - x 5) * ((x 6 - x 3) * (x 10 - x 4) - (x 7 - x 4) * (x 9 - x 3))

noncomputable def nPt1 (x : Store ℝ) : ℝ := 0

noncomputable def nPt2 (x : Store ℝ) : ℝ := 0

noncomputable def dPt0 (x : Store ℝ) : ℝ := (x 7 - x 4) * (x 11 - x 5) - (x 8 - x 5) * (x 10 - x 4)

noncomputable def dPt1 (x : Store ℝ) : ℝ := (x 8 - x 5) * (x 9 - x 3) - (x 6 - x 3) * (x 11 - x 5)

noncomputable def dPt2 (x : Store ℝ) : ℝ := (x 6 - x 3) * (x 10 - x 4) - (x 7 - x 4) * (x 9 - x 3)

theorem nPt0_aff (x : Store ℝ) (i : Nat) (hi : i < 12) (y : ℝ) : nPt0 (Mat.upd x i y) = nPt0 (Mat.upd x i (x i)) + (nPt0 (Mat.upd x i (x i + 1)) - nPt0 x) * (y - x i) := by
  unfold nPt0; interval_cases i <;> simp [Mat.upd] <;> ring

theorem nPt1_aff (x : Store ℝ) (i : Nat) (hi : i < 12) (y : ℝ) : nPt1 (Mat.upd x i y) = nPt1 (Mat.upd x i (x i)) + (nPt1 (Mat.upd x i (x i + 1)) - nPt1 x) * (y - x i) := by
  unfold nPt1; interval_cases i <;> simp [Mat.upd] <;> ring

theorem nPt2_aff (x : Store ℝ) (i : Nat) (hi : i < 12) (y : ℝ) : nPt2 (Mat.upd x i y) = nPt2 (Mat.upd x i (x i)) + (nPt2 (Mat.upd x i (x i + 1)) - nPt2 x) * (y - x i) := by
  unfold nPt2; interval_cases i <;> simp [Mat.upd] <;> ring

theorem dPt0_aff (x : Store ℝ) (i : Nat) (hi : i < 12) (y : ℝ) : dPt0 (Mat.upd x i y) = dPt0 (Mat.upd x i (x i)) + (dPt0 (Mat.upd x i (x i + 1)) - dPt0 x) * (y - x i) := by
  unfold dPt0; interval_cases i <;> simp [Mat.upd] <;> ring

theorem dPt1_aff (x : Store ℝ) (i : Nat) (hi : i < 12) (y : ℝ) : dPt1 (Mat.upd x i y) = dPt1 (Mat.upd x i (x i)) + (dPt1 (Mat.upd x i (x i + 1)) - dPt1 x) * (y - x i) := by
  unfold dPt1; interval_cases i <;> simp [Mat.upd] <;> ring

theorem dPt2_aff (x : Store ℝ) (i : Nat) (hi : i < 12) (y : ℝ) : dPt2 (Mat.upd x i y) = dPt2 (Mat.upd x i (x i)) + (dPt2 (Mat.upd x i (x i + 1)) - dPt2 x) * (y - x i) := by
  unfold dPt2; interval_cases i <;> simp [Mat.upd] <;> ring

theorem fPt_eq (x : Store ℝ) : (dist2Pt (point 3 x 0) (point 3 x 1) (point 3 x 2) (point 3 x 3)).getD 0 = (nPt0 x ^ 2 + nPt1 x ^ 2 + nPt2 x ^ 2) / (dPt0 x ^ 2 + dPt1 x ^ 2 + dPt2 x ^ 2) := by
  unfold dist2Pt; try simp only []
  rw [quot_getD]; congr 1
  all_goals simp only [dot3, norm3, norm2, cross_0, cross_1, cross_2, sub, point, nPt0, nPt1, nPt2, dPt0, dPt1, dPt2]; ring

theorem gPt_aux (x : Store ℝ) : gPt x = gPtAux x (1 / (dPt0 x ^ 2 + dPt1 x ^ 2 + dPt2 x ^ 2)) (nPt0 x) := by
  have e : ∀ r T r' T', r = r' → T = T' → gPtAux x r T = gPtAux x r' T' := fun r T r' T' h k => by rw [h, k]
  refine e _ _ _ _ ?_ ?_
  · congr 1; simp only [dPt0, dPt1, dPt2]; ring
  · simp only [nPt0, nPt1, nPt2]; ring

theorem gPt_partials (x : Store ℝ) (h : dPt0 x ^ 2 + dPt1 x ^ 2 + dPt2 x ^ 2 ≠ 0) : IsPartials 12 (fun x => (nPt0 x ^ 2 + nPt1 x ^ 2 + nPt2 x ^ 2) / (dPt0 x ^ 2 + dPt1 x ^ 2 + dPt2 x ^ 2)) x (gPt x) := by
  intro i hi
  have hx := upd_self x i
  have k := quot3 (nPt0_aff x i hi) (nPt1_aff x i hi) (nPt2_aff x i hi) (dPt0_aff x i hi) (dPt1_aff x i hi) (dPt2_aff x i hi) (by rw [hx]; exact h)
  refine k.congr_deriv ?_
  clear k
  rw [hx]
  rw [gPt_aux]
  generalize 1 / (dPt0 x ^ 2 + dPt1 x ^ 2 + dPt2 x ^ 2) = r
  have z : nPt1 x = 0 ∧ nPt2 x = 0 := ⟨rfl, rfl⟩
  rw [z.1, z.2]
  have key : ∀ T : ℝ, gPtAux x r T i = 2 * (T * (nPt0 (Mat.upd x i (x i + 1)) - nPt0 x)) * r - T ^ 2 * (2 * (dPt0 x * (dPt0 (Mat.upd x i (x i + 1)) - dPt0 x) + dPt1 x * (dPt1 (Mat.upd x i (x i + 1)) - dPt1 x) + dPt2 x * (dPt2 (Mat.upd x i (x i + 1)) - dPt2 x))) * r ^ 2 := by
    intro T
    unfold gPtAux
    interval_cases i <;> simp [Mat.write, nPt0, nPt1, nPt2, dPt0, dPt1, dPt2, Mat.upd] <;> ring
  rw [key]; ring

noncomputable def nCn0 (x : Store ℝ) : ℝ := (x 4 - x 1) * (x 11 - x 8) - (x 5 - x 2) * (x 10 - x 7)

noncomputable def nCn1 (x : Store ℝ) : ℝ := (x 5 - x 2) * (x 9 - x 6) - (x 3 - x 0) * (x 11 - x 8)

noncomputable def nCn2 (x : Store ℝ) : ℝ := (x 3 - x 0) * (x 10 - x 7) - (x 4 - x 1) * (x 9 - x 6)

noncomputable def dCn0 (x : Store ℝ) : ℝ := 1

noncomputable def dCn1 (x : Store ℝ) : ℝ := 0

noncomputable def dCn2 (x : Store ℝ) : ℝ := 0

theorem nCn0_aff (x : Store ℝ) (i : Nat) (hi : i < 12) (y : ℝ) : nCn0 (Mat.upd x i y) = nCn0 (Mat.upd x i (x i)) + (nCn0 (Mat.upd x i (x i + 1)) - nCn0 x) * (y - x i) := by
  unfold nCn0; interval_cases i <;> simp [Mat.upd] <;> ring

theorem nCn1_aff (x : Store ℝ) (i : Nat) (hi : i < 12) (y : ℝ) : nCn1 (Mat.upd x i y) = nCn1 (Mat.upd x i (x i)) + (nCn1 (Mat.upd x i (x i + 1)) - nCn1 x) * (y - x i) := by
  unfold nCn1; interval_cases i <;> simp [Mat.upd] <;> ring

theorem nCn2_aff (x : Store ℝ) (i : Nat) (hi : i < 12) (y : ℝ) : nCn2 (Mat.upd x i y) = nCn2 (Mat.upd x i (x i)) + (nCn2 (Mat.upd x i (x i + 1)) - nCn2 x) * (y - x i) := by
  unfold nCn2; interval_cases i <;> simp [Mat.upd] <;> ring

theorem dCn0_aff (x : Store ℝ) (i : Nat) (hi : i < 12) (y : ℝ) : dCn0 (Mat.upd x i y) = dCn0 (Mat.upd x i (x i)) + (dCn0 (Mat.upd x i (x i + 1)) - dCn0 x) * (y - x i) := by
  unfold dCn0; interval_cases i <;> simp [Mat.upd] <;> ring

theorem dCn1_aff (x : Store ℝ) (i : Nat) (hi : i < 12) (y : ℝ) : dCn1 (Mat.upd x i y) = dCn1 (Mat.upd x i (x i)) + (dCn1 (Mat.upd x i (x i + 1)) - dCn1 x) * (y - x i) := by
  unfold dCn1; interval_cases i <;> simp [Mat.upd] <;> ring

theorem dCn2_aff (x : Store ℝ) (i : Nat) (hi : i < 12) (y : ℝ) : dCn2 (Mat.upd x i y) = dCn2 (Mat.upd x i (x i)) + (dCn2 (Mat.upd x i (x i + 1)) - dCn2 x) * (y - x i) := by
  unfold dCn2; interval_cases i <;> simp [Mat.upd] <;> ring

theorem fCn_eq (x : Store ℝ) : cn2 (point 3 x 0) (point 3 x 1) (point 3 x 2) (point 3 x 3) = (nCn0 x ^ 2 + nCn1 x ^ 2 + nCn2 x ^ 2) / (dCn0 x ^ 2 + dCn1 x ^ 2 + dCn2 x ^ 2) := by
  unfold cn2; simp only [norm3, cross_0, cross_1, cross_2, sub, point, nCn0, nCn1, nCn2, dCn0, dCn1, dCn2]; norm_num; ring

theorem gCn_partials (x : Store ℝ) (h : dCn0 x ^ 2 + dCn1 x ^ 2 + dCn2 x ^ 2 ≠ 0) : IsPartials 12 (fun x => (nCn0 x ^ 2 + nCn1 x ^ 2 + nCn2 x ^ 2) / (dCn0 x ^ 2 + dCn1 x ^ 2 + dCn2 x ^ 2)) x (gCn x) := by
  intro i hi
  have hx := upd_self x i
  have k := quot3 (nCn0_aff x i hi) (nCn1_aff x i hi) (nCn2_aff x i hi) (dCn0_aff x i hi) (dCn1_aff x i hi) (dCn2_aff x i hi) (by rw [hx]; exact h)
  refine k.congr_deriv ?_
  clear k
  rw [hx]
  unfold gCn
  interval_cases i <;> simp [Mat.write, nCn0, nCn1, nCn2, dCn0, dCn1, dCn2, Mat.upd] <;> ring

end Verif.Dist
