import Verif.Props.SmallMat
import Verif.Proof.Givens
import Mathlib.LinearAlgebra.Matrix.Notation

/-! Helper lemmas for C76: the singular value decomposition. -/
namespace Verif.Rot

open Matrix
open Verif.Mat (forN forN_succ forN_zero)

/-! ## Two dimensions -/

theorem polar2_rows (A : Mx) (R : Givens) : (polar2 A R).1.rowi = R.rowi ∧ (polar2 A R).1.rowk = R.rowk := by
  simp only [polar2]; split <;> exact ⟨rfl, rfl⟩

theorem polar2_entries (A : Mx) (R : Givens) (h0 : R.rowi = 0) (h1 : R.rowk = 1) :
    let p := polar2 A R
    p.1.c * p.1.c + p.1.s * p.1.s = 1 ∧ p.2 0 1 = p.2 1 0 ∧
    p.2 0 0 + p.2 1 1 = √((A 0 0 + A 1 1) * (A 0 0 + A 1 1) + (A 1 0 - A 0 1) * (A 1 0 - A 0 1)) ∧
    p.2 0 0 = p.1.c * A 0 0 - p.1.s * A 1 0 ∧ p.2 0 1 = p.1.c * A 0 1 - p.1.s * A 1 1 ∧
    p.2 1 0 = p.1.s * A 0 0 + p.1.c * A 1 0 ∧ p.2 1 1 = p.1.s * A 0 1 + p.1.c * A 1 1 := by
  intro p
  have hr : p.1.rowi = 0 ∧ p.1.rowk = 1 := by rw [← h0, ← h1]; exact polar2_rows A R
  have hne : p.1.rowi ≠ p.1.rowk := by rw [hr.1, hr.2]; decide
  have e : p.2 = p.1.row 2 A := rfl
  have e00 : p.2 0 0 = p.1.c * A 0 0 - p.1.s * A 1 0 := by rw [e, row_apply _ _ _ hne]; simp [hr.1, hr.2]
  have e01 : p.2 0 1 = p.1.c * A 0 1 - p.1.s * A 1 1 := by rw [e, row_apply _ _ _ hne]; simp [hr.1, hr.2]
  have e10 : p.2 1 0 = p.1.s * A 0 0 + p.1.c * A 1 0 := by rw [e, row_apply _ _ _ hne]; simp [hr.1, hr.2]
  have e11 : p.2 1 1 = p.1.s * A 0 1 + p.1.c * A 1 1 := by rw [e, row_apply _ _ _ hne]; simp [hr.1, hr.2]
  rw [e00, e01, e10, e11]
  have hq : 0 ≤ (A 0 0 + A 1 1) * (A 0 0 + A 1 1) + (A 1 0 - A 0 1) * (A 1 0 - A 0 1) :=
    add_nonneg (mul_self_nonneg _) (mul_self_nonneg _)
  have hs := Real.mul_self_sqrt hq
  by_cases hd : √((A 0 0 + A 1 1) * (A 0 0 + A 1 1) + (A 1 0 - A 0 1) * (A 1 0 - A 0 1)) = 0
  · have hc : p.1.c = 1 ∧ p.1.s = 0 := by
      show (polar2 A R).1.c = 1 ∧ (polar2 A R).1.s = 0
      simp [polar2, hd]
    rw [hd, mul_zero] at hs
    obtain ⟨g1, g2⟩ := sq_sum_zero hs.symm
    rw [hc.1, hc.2, hd]
    refine ⟨by norm_num, by linear_combination -g2, by linear_combination g1, ?_, ?_, ?_, ?_⟩ <;> ring
  · have hc : p.1.c = (A 0 0 + A 1 1) / √((A 0 0 + A 1 1) * (A 0 0 + A 1 1) + (A 1 0 - A 0 1) * (A 1 0 - A 0 1)) ∧
        p.1.s = -(A 1 0 - A 0 1) / √((A 0 0 + A 1 1) * (A 0 0 + A 1 1) + (A 1 0 - A 0 1) * (A 1 0 - A 0 1)) := by
      show (polar2 A R).1.c = _ ∧ (polar2 A R).1.s = _
      constructor <;> simp only [polar2, ne_eq, hd, not_false_eq_true, if_true]
    rw [hc.1, hc.2]
    set d := √((A 0 0 + A 1 1) * (A 0 0 + A 1 1) + (A 1 0 - A 0 1) * (A 1 0 - A 0 1)) with hdd
    refine ⟨?_, ?_, ?_, ?_, ?_, ?_, ?_⟩ <;> first | rfl | skip
    · rw [div_mul_div_comm, div_mul_div_comm, hs, ← add_div, div_eq_one_iff_eq (by rw [← hs]; exact mul_ne_zero hd hd)]; ring
    · field_simp; ring
    · field_simp; rw [pow_two, hs]; ring

theorem quad_root {y u D : ℝ} (hD : D ≠ 0) (h : y * y + u * D - D * D = 0) : y * (y / D * (y / D)) + u * (y / D) - y = 0 := by
  have : y * (y / D * (y / D)) + u * (y / D) - y = y * (y * y + u * D - D * D) / (D * D) := by field_simp
  rw [this, h]; simp

theorem diagonalize_spec (x y z : ℝ) :
    let d := diagonalize x y z
    d.1 * d.1 + d.2.1 * d.2.1 = 1 ∧ x = d.1 * d.1 * d.2.2.1 + d.2.1 * d.2.1 * d.2.2.2 ∧ y = d.1 * d.2.1 * (d.2.2.2 - d.2.2.1) ∧
    z = d.2.1 * d.2.1 * d.2.2.1 + d.1 * d.1 * d.2.2.2 := by
  intro d
  by_cases hy : y * y = 0
  · have : d = (1, 0, x, z) := by show diagonalize x y z = _; simp [diagonalize, hy]
    rw [this]
    have hy0 : y = 0 := by simpa using hy
    rw [hy0]; norm_num
  · have hy0 : y ≠ 0 := by intro h; rw [h] at hy; simp at hy
    have hyp : 0 < y * y := lt_of_le_of_ne (mul_self_nonneg y) (Ne.symm hy)
    have hw0 : 0 < 1 / 2 * (x - z) * (1 / 2 * (x - z)) + y * y := by nlinarith [mul_self_nonneg (1 / 2 * (x - z))]
    have hw := Real.mul_self_sqrt hw0.le
    have hwp := Real.sqrt_pos.2 hw0
    set w := √(1 / 2 * (x - z) * (1 / 2 * (x - z)) + y * y) with hwd
    obtain ⟨t, ht, hq⟩ : ∃ t, t = (if 1 / 2 * (x - z) > 0 then y / (1 / 2 * (x - z) + w) else y / (1 / 2 * (x - z) - w)) ∧
        y * (t * t) + (x - z) * t - y = 0 := by
      refine ⟨_, rfl, ?_⟩
      split
      · rename_i h
        have hD : 1 / 2 * (x - z) + w ≠ 0 := by linarith
        exact quad_root hD (by linear_combination -hw)
      · rename_i h
        have hD : 1 / 2 * (x - z) - w ≠ 0 := by linarith
        exact quad_root hD (by linear_combination -hw)
    have hd : d = (rsqrt (t * t + 1), -t * rsqrt (t * t + 1),
        rsqrt (t * t + 1) * rsqrt (t * t + 1) * x - 2 * rsqrt (t * t + 1) * (-t * rsqrt (t * t + 1)) * y + -t * rsqrt (t * t + 1) * (-t * rsqrt (t * t + 1)) * z,
        -t * rsqrt (t * t + 1) * (-t * rsqrt (t * t + 1)) * x + 2 * rsqrt (t * t + 1) * (-t * rsqrt (t * t + 1)) * y + rsqrt (t * t + 1) * rsqrt (t * t + 1) * z) := by
      show diagonalize x y z = _
      rw [ht]
      simp only [diagonalize, hy, if_false, hwd]
    have hr := (rsqrt_sq (show 0 < t * t + 1 by nlinarith [mul_self_nonneg t])).1
    generalize rsqrt (t * t + 1) = k at hd hr
    rw [hd]
    dsimp only
    have hk : (k * k) * (1 + t * t) = 1 := by linear_combination hr
    refine ⟨by linear_combination hr, ?_, ?_, ?_⟩
    · linear_combination (-x * (k * k * (1 + t * t) + 1)) * hk + (2 * t * (k * k) * (k * k)) * hq
    · linear_combination (-y * (k * k * (1 + t * t) + 1)) * hk + (k * k * (k * k) * (t * t - 1)) * hq
    · linear_combination (-z * (k * k * (1 + t * t) + 1)) * hk - (2 * t * (k * k) * (k * k)) * hq

theorem qrSvd2_entries (A : Mx) (U V : Givens) (h0 : U.rowi = 0) (h1 : U.rowk = 1) :
    let r := qrSvd2 A U V
    r.U.c * r.U.c + r.U.s * r.U.s = 1 ∧ r.V.c * r.V.c + r.V.s * r.V.s = 1 ∧ |r.S1| ≤ r.S0 ∧
    A 0 0 = r.U.c * r.S0 * r.V.c + r.U.s * r.S1 * r.V.s ∧ A 0 1 = -(r.U.c * r.S0 * r.V.s) + r.U.s * r.S1 * r.V.c ∧
    A 1 0 = -(r.U.s * r.S0 * r.V.c) + r.U.c * r.S1 * r.V.s ∧ A 1 1 = r.U.s * r.S0 * r.V.s + r.U.c * r.S1 * r.V.c := by
  intro r
  obtain ⟨pu, ps, pt, e00, e01, e10, e11⟩ := polar2_entries A U h0 h1
  obtain ⟨du, dx, dy, dz⟩ := diagonalize_spec ((polar2 A U).2 0 0) ((polar2 A U).2 0 1) ((polar2 A U).2 1 1)
  have hr : r = qrSvd2 A U V := rfl
  unfold qrSvd2 at hr
  dsimp only at hr
  revert dx dy dz du hr
  generalize diagonalize ((polar2 A U).2 0 0) ((polar2 A U).2 0 1) ((polar2 A U).2 1 1) = D
  obtain ⟨co, si, σ0, σ1⟩ := D
  dsimp only
  intro du dx dy dz hr
  have hq : 0 ≤ (polar2 A U).2 0 0 + (polar2 A U).2 1 1 := by rw [pt]; exact Real.sqrt_nonneg _
  have hsum : σ0 + σ1 = (polar2 A U).2 0 0 + (polar2 A U).2 1 1 := by rw [dx, dz]; linear_combination -(σ0 + σ1) * du
  rw [← hsum] at hq
  revert hr e00 e01 e10 e11 ps dx dy dz pu
  generalize (polar2 A U).2 0 0 = x
  generalize (polar2 A U).2 0 1 = y
  generalize (polar2 A U).2 1 0 = y'
  generalize (polar2 A U).2 1 1 = z
  generalize (polar2 A U).1 = R
  intro pu ps e00 e01 e10 e11 dx dy dz hr
  have a00 : A 0 0 = R.c * x + R.s * y' := by rw [e00, e10]; linear_combination -(A 0 0) * pu
  have a01 : A 0 1 = R.c * y + R.s * z := by rw [e01, e11]; linear_combination -(A 0 1) * pu
  have a10 : A 1 0 = -R.s * x + R.c * y' := by rw [e00, e10]; linear_combination -(A 1 0) * pu
  have a11 : A 1 1 = -R.s * y + R.c * z := by rw [e01, e11]; linear_combination -(A 1 1) * pu
  rw [← ps] at a00 a10
  rw [a00, a01, a10, a11, dx, dy, dz]
  split at hr
  · rename_i hlt
    rw [hr]
    dsimp only [Givens.mul]
    refine ⟨?_, by linear_combination du, ?_, by ring, by ring, by ring, by ring⟩
    · linear_combination (si * si + co * co) * pu + du
    · rw [abs_le]; constructor <;> linarith
  · rename_i hlt
    rw [hr]
    dsimp only [Givens.mul]
    refine ⟨?_, by linear_combination du, ?_, by ring, by ring, by ring, by ring⟩
    · linear_combination (si * si + co * co) * pu + du
    · rw [abs_le]; constructor <;> linarith

theorem qrSvd2_rows (A : Mx) (U V : Givens) : let r := qrSvd2 A U V
    r.U.rowi = U.rowi ∧ r.U.rowk = U.rowk ∧ r.V.rowi = V.rowi ∧ r.V.rowk = V.rowk := by
  intro r
  have h := polar2_rows A U
  show (qrSvd2 A U V).U.rowi = _ ∧ (qrSvd2 A U V).U.rowk = _ ∧ (qrSvd2 A U V).V.rowi = _ ∧ (qrSvd2 A U V).V.rowk = _
  unfold qrSvd2
  dsimp only
  split <;> exact ⟨h.1, h.2, rfl, rfl⟩

/-! ## Sorting -/

/-- `U diag(S) Vᵀ = A` with orthogonal U and V of the same determinant e. -/
structure SG (A : Matrix (Fin 3) (Fin 3) ℝ) (dU dV : ℝ) (x : Sg) : Prop where
  rep : mx 3 x.U * Matrix.diagonal (fun i : Fin 3 => x.S i) * (mx 3 x.V)ᵀ = A
  orthU : mx 3 x.U * (mx 3 x.U)ᵀ = 1
  orthV : mx 3 x.V * (mx 3 x.V)ᵀ = 1
  detU : (mx 3 x.U).det = dU
  detV : (mx 3 x.V).det = dV

theorem SG.step {A : Matrix (Fin 3) (Fin 3) ℝ} {dU dV : ℝ} {x y : Sg} (h : SG A dU dV x) (P Q : Matrix (Fin 3) (Fin 3) ℝ)
    (hU : mx 3 y.U = mx 3 x.U * P) (hV : mx 3 y.V = mx 3 x.V * Q) (hP : P * Pᵀ = 1) (hQ : Q * Qᵀ = 1)
    (hS : P * Matrix.diagonal (fun i : Fin 3 => y.S i) * Qᵀ = Matrix.diagonal (fun i : Fin 3 => x.S i)) {eU eV : ℝ} (hdU : dU * P.det = eU) (hdV : dV * Q.det = eV) :
    SG A eU eV y := by
  refine ⟨?_, ?_, ?_, ?_, ?_⟩
  · rw [hU, hV, Matrix.transpose_mul, ← h.rep, ← hS]; simp only [Matrix.mul_assoc]
  · rw [hU, Matrix.transpose_mul, Matrix.mul_assoc, ← Matrix.mul_assoc P, hP, Matrix.one_mul, h.orthU]
  · rw [hV, Matrix.transpose_mul, Matrix.mul_assoc, ← Matrix.mul_assoc Q, hQ, Matrix.one_mul, h.orthV]
  · rw [hU, Matrix.det_mul, h.detU, hdU]
  · rw [hV, Matrix.det_mul, h.detV, hdV]

/-- Changing the sign of a column. -/
def negM (j : Fin 3) : Matrix (Fin 3) (Fin 3) ℝ := Matrix.diagonal fun i => if i = j then -1 else 1

/-- Exchanging two columns. -/
def swapM (j k : Fin 3) : Matrix (Fin 3) (Fin 3) ℝ := fun a b => if a = Equiv.swap j k b then 1 else 0

theorem negCol_mat (A : Mx) (j : Fin 3) : mx 3 (negCol A j) = mx 3 A * negM j := by
  funext a b
  rw [negM, Matrix.mul_diagonal]
  fin_cases j <;> fin_cases a <;> fin_cases b <;> simp [mx, negCol, forN, List.range_succ, set]

theorem swapCol_mat (A : Mx) (j k : Fin 3) : mx 3 (swapCol A j k) = mx 3 A * swapM j k := by
  funext a b
  rw [Matrix.mul_apply]
  simp only [swapM, mul_ite, mul_one, mul_zero, Finset.sum_ite_eq', Finset.mem_univ, if_true]
  fin_cases j <;> fin_cases k <;> fin_cases a <;> fin_cases b <;> simp [mx, swapCol, forN, List.range_succ, set, Equiv.swap_apply_def]

theorem negM_orth (j : Fin 3) : negM j * (negM j)ᵀ = 1 := by
  rw [negM, Matrix.diagonal_transpose, Matrix.diagonal_mul_diagonal, ← Matrix.diagonal_one]
  congr 1; funext i; split <;> norm_num

theorem negM_det (j : Fin 3) : (negM j).det = -1 := by
  rw [negM, Matrix.det_diagonal, Fin.prod_univ_three]; fin_cases j <;> norm_num <;> decide

theorem swapM_orth (j k : Fin 3) : swapM j k * (swapM j k)ᵀ = 1 := by
  funext a b
  rw [Matrix.mul_apply, Fin.sum_univ_three]
  fin_cases j <;> fin_cases k <;> fin_cases a <;> fin_cases b <;> simp [swapM, Equiv.swap_apply_def]

theorem swapM_det {j k : Fin 3} (h : j ≠ k) : (swapM j k).det = -1 := by
  rw [Matrix.det_fin_three]
  fin_cases j <;> fin_cases k <;> simp [swapM, Equiv.swap_apply_def] at h ⊢

theorem SG.flip {A : Matrix (Fin 3) (Fin 3) ℝ} {dU dV : ℝ} {x : Sg} (h : SG A dU dV x) (j : Fin 3) : SG A (-dU) dV (flipSign j x) := by
  refine h.step (negM j) 1 (negCol_mat _ _) (by rw [Matrix.mul_one]; rfl) (negM_orth j) (by simp) ?_ (by rw [negM_det]; ring) (by simp)
  rw [Matrix.transpose_one, Matrix.mul_one, negM, Matrix.diagonal_mul_diagonal]
  congr 1; funext i
  simp only [flipSign, setS, ← Fin.ext_iff]
  split
  · rename_i h; rw [h]; ring
  · ring

theorem SG.swap {A : Matrix (Fin 3) (Fin 3) ℝ} {dU dV : ℝ} {x : Sg} (h : SG A dU dV x) {j k : Fin 3} (hjk : j ≠ k) :
    SG A (-dU) (-dV) (swapSigma j k x) := by
  refine h.step (swapM j k) (swapM j k) (swapCol_mat _ _ _) (swapCol_mat _ _ _) (swapM_orth _ _) (swapM_orth _ _) ?_
    (by rw [swapM_det hjk]; ring) (by rw [swapM_det hjk]; ring)
  funext a b
  rw [Matrix.mul_apply, Fin.sum_univ_three]
  simp only [Matrix.mul_diagonal, Matrix.transpose_apply]
  fin_cases j <;> fin_cases k <;> fin_cases a <;> fin_cases b <;> simp [swapM, Equiv.swap_apply_def, swapSigma, setS] at hjk ⊢

theorem SG.neg {A : Matrix (Fin 3) (Fin 3) ℝ} {dU dV : ℝ} {x : Sg} (h : SG A dU dV x) (j : Fin 3) :
    SG A (-dU) (-dV) { x with U := negCol x.U j, V := negCol x.V j } := by
  refine h.step (negM j) (negM j) (negCol_mat _ _) (negCol_mat _ _) (negM_orth _) (negM_orth _) ?_
    (by rw [negM_det]; ring) (by rw [negM_det]; ring)
  simp only [negM, Matrix.diagonal_transpose, Matrix.diagonal_mul_diagonal]
  congr 1; funext i; split <;> ring

/-- The order of the results. -/
def Sorted (S : Nat → ℝ) : Prop := S 1 ≤ S 0 ∧ |S 2| ≤ S 1

theorem sortSigma0_spec {A : Matrix (Fin 3) (Fin 3) ℝ} {x : Sg} (h : SG A 1 1 x) (hs : |x.S 1| ≤ x.S 0) :
    SG A 1 1 (sortSigma0 x) ∧ Sorted (sortSigma0 x).S := by
  have flip2 : ∀ x : Sg, SG A 1 1 x → SG A 1 1 (flipSign 2 (flipSign 1 x)) := by
    intro x h; have := (h.flip 1).flip 2; rwa [neg_neg] at this
  unfold sortSigma0
  split
  · rename_i h1
    split
    · rename_i h2
      refine ⟨flip2 x h, ?_⟩
      simp [Sorted, flipSign, setS]
      rw [abs_of_neg h2] at h1 hs
      exact ⟨hs, h1⟩
    · rename_i h2
      refine ⟨h, ?_⟩
      rw [abs_of_nonneg (not_lt.1 h2)] at h1 hs
      exact ⟨hs, h1⟩
  · rename_i h1
    rw [ge_iff_le, not_le] at h1
    obtain ⟨y, hy, hg, e0, e1, e2⟩ : ∃ y, y = (if x.S 2 < 0 then flipSign 2 (flipSign 1 x) else x) ∧ SG A 1 1 y ∧ y.S 0 = x.S 0 ∧ |y.S 1| = |x.S 1| ∧ y.S 2 = |x.S 2| := by
      refine ⟨_, rfl, ?_⟩
      split
      · rename_i h2
        refine ⟨flip2 x h, ?_⟩
        simp [flipSign, setS, abs_of_neg h2]
      · rename_i h2
        exact ⟨h, rfl, rfl, (abs_of_nonneg (not_lt.1 h2)).symm⟩
    rw [← hy]
    dsimp only
    have hw := hg.swap (j := 1) (k := 2) (by decide)
    have s0 : (swapSigma 1 2 y).S 0 = x.S 0 := by simp [swapSigma, setS, e0]
    have s1 : (swapSigma 1 2 y).S 1 = |x.S 2| := by simp [swapSigma, setS, e2]
    have s2 : |(swapSigma 1 2 y).S 2| = |x.S 1| := by simp [swapSigma, setS, e1]
    have hw' : SG A (-1) (-1) (swapSigma 1 2 y) := hw
    revert s0 s1 s2 hw'
    generalize swapSigma 1 2 y = z
    intro s0 s1 s2 hw'
    split
    · rename_i h3
      refine ⟨by have := hw'.swap (j := 0) (k := 1) (by decide); rwa [neg_neg] at this, ?_⟩
      simp [Sorted, swapSigma, setS]
      exact ⟨h3.le, by rw [s2, s0]; exact hs⟩
    · rename_i h3
      refine ⟨by have := hw'.neg 2; rwa [neg_neg] at this, ?_⟩
      exact ⟨not_lt.1 h3, by show |z.S 2| ≤ z.S 1; rw [s2, s1]; exact h1.le⟩

theorem sortSigma1_spec {A : Matrix (Fin 3) (Fin 3) ℝ} {x : Sg} (h : SG A 1 1 x) (hs : |x.S 2| ≤ x.S 1) :
    SG A 1 1 (sortSigma1 x) ∧ Sorted (sortSigma1 x).S := by
  unfold sortSigma1
  split
  · rename_i h1
    split
    · rename_i h2
      refine ⟨by have := (h.flip 0).flip 2; rwa [neg_neg] at this, ?_⟩
      rw [abs_of_neg h2] at h1
      simp [Sorted, flipSign, setS]
      exact ⟨h1, hs⟩
    · rename_i h2
      rw [abs_of_nonneg (not_lt.1 h2)] at h1
      exact ⟨h, h1, hs⟩
  · rename_i h1
    rw [ge_iff_le, not_le] at h1
    have hw : SG A (-1) (-1) (swapSigma 0 1 x) := h.swap (j := 0) (k := 1) (by decide)
    have s0 : (swapSigma 0 1 x).S 0 = x.S 1 := by simp [swapSigma, setS]
    have s1 : (swapSigma 0 1 x).S 1 = x.S 0 := by simp [swapSigma, setS]
    have s2 : (swapSigma 0 1 x).S 2 = x.S 2 := by simp [swapSigma, setS]
    obtain ⟨y, hy, hg, e0, e1, e2⟩ : ∃ y, y = (if |(swapSigma 0 1 x).S 1| < |(swapSigma 0 1 x).S 2| then swapSigma 1 2 (swapSigma 0 1 x)
        else ⟨negCol (swapSigma 0 1 x).U 1, (swapSigma 0 1 x).S, negCol (swapSigma 0 1 x).V 1⟩) ∧ SG A 1 1 y ∧
        y.S 0 = x.S 1 ∧ |y.S 2| ≤ |y.S 1| ∧ |y.S 1| ≤ x.S 1 := by
      refine ⟨_, rfl, ?_⟩
      split
      · rename_i h2
        refine ⟨by have := hw.swap (j := 1) (k := 2) (by decide); rwa [neg_neg] at this, ?_⟩
        rw [s1, s2] at h2
        have t0 : (swapSigma 1 2 (swapSigma 0 1 x)).S 0 = x.S 1 := by rw [← s0]; simp [swapSigma, setS]
        have t1 : (swapSigma 1 2 (swapSigma 0 1 x)).S 1 = x.S 2 := by rw [← s2]; simp [swapSigma, setS]
        have t2 : (swapSigma 1 2 (swapSigma 0 1 x)).S 2 = x.S 0 := by rw [← s1]; simp [swapSigma, setS]
        rw [t0, t1, t2]
        exact ⟨rfl, h2.le, hs⟩
      · rename_i h2
        refine ⟨by have := hw.neg 1; rwa [neg_neg] at this, ?_⟩
        rw [s1, s2] at h2
        show (swapSigma 0 1 x).S 0 = _ ∧ |(swapSigma 0 1 x).S 2| ≤ |(swapSigma 0 1 x).S 1| ∧ |(swapSigma 0 1 x).S 1| ≤ _
        rw [s0, s1, s2]
        exact ⟨rfl, not_lt.1 h2, h1.le⟩
    dsimp only
    rw [← hy]
    split
    · rename_i h3
      refine ⟨by have := (hg.flip 1).flip 2; rwa [neg_neg] at this, ?_⟩
      rw [abs_of_neg h3] at e1 e2
      simp [Sorted, flipSign, setS]
      exact ⟨by linarith, e1⟩
    · rename_i h3
      rw [abs_of_nonneg (not_lt.1 h3)] at e1 e2
      exact ⟨hg, by linarith, e1⟩

/-! ## The 2 by 2 blocks -/

/-- The entries of B that `process<t>` uses. -/
def blk (t : Nat) (B : Mx) : Matrix (Fin 3) (Fin 3) ℝ :=
  if t = 0 then !![B 0 0, B 0 1, 0; B 1 0, B 1 1, 0; 0, 0, B 2 2] else !![B 0 0, 0, 0; 0, B 1 1, B 1 2; 0, B 2 1, B 2 2]

theorem process_spec {A : Matrix (Fin 3) (Fin 3) ℝ} {B U V : Mx} {t : Nat} (ht : t < 2) (hU : IsRot (mx 3 U)) (hV : IsRot (mx 3 V))
    (hrep : mx 3 U * blk t B * (mx 3 V)ᵀ = A) :
    SG A 1 1 (process t B U V) ∧ |(process t B U V).S (t + 1)| ≤ (process t B U V).S t := by
  obtain ⟨uu, vu, hs, a00, a01, a10, a11⟩ := qrSvd2_entries (fun i j => B (t + i) (t + j)) (Givens.of 0 1) (Givens.of 0 1) rfl rfl
  obtain ⟨r1, r2, r3, r4⟩ := qrSvd2_rows (fun i j => B (t + i) (t + j)) (Givens.of 0 1) (Givens.of 0 1)
  unfold process
  dsimp only
  generalize qrSvd2 (fun i j => B (t + i) (t + j)) (Givens.of 0 1) (Givens.of 0 1) = r at *
  simp only [of_rowi, of_rowk] at r1 r2 r3 r4
  have hab : (⟨t, by omega⟩ : Fin 3) ≠ ⟨t + 1, by omega⟩ := by intro h; have := congrArg Fin.val h; simp at this
  set u : Givens := { r.U with rowi := r.U.rowi + t, rowk := r.U.rowk + t } with hu
  set v : Givens := { r.V with rowi := r.V.rowi + t, rowk := r.V.rowk + t } with hv
  have cu := col_mat (n := 3) (g := u) (a := ⟨t, by omega⟩) (b := ⟨t + 1, by omega⟩) (by simp [hu, r1]) (by simp [hu, r2, Nat.add_comm]) hab U
  have cv := col_mat (n := 3) (g := v) (a := ⟨t, by omega⟩) (b := ⟨t + 1, by omega⟩) (by simp [hv, r3]) (by simp [hv, r4, Nat.add_comm]) hab V
  have ru := rot_rot3 hab uu
  have rv := rot_rot3 hab vu
  have euc : u.c = r.U.c := rfl
  have eus : u.s = r.U.s := rfl
  have evc : v.c = r.V.c := rfl
  have evs : v.s = r.V.s := rfl
  rw [euc, eus] at cu
  rw [evc, evs] at cv
  refine ⟨⟨?_, ?_, ?_, ?_, ?_⟩, ?_⟩
  · rw [cu, cv, Matrix.transpose_mul, Matrix.transpose_transpose, ← hrep]
    have key : (rot (⟨t, by omega⟩ : Fin 3) ⟨t + 1, by omega⟩ r.U.c r.U.s)ᵀ * Matrix.diagonal (fun i : Fin 3 =>
        setS (setS (setS (fun _ => 0) (if t = 1 then 0 else 2) (B (if t = 1 then 0 else 2) (if t = 1 then 0 else 2))) t r.S0) (t + 1) r.S1 i)
        * rot (⟨t, by omega⟩ : Fin 3) ⟨t + 1, by omega⟩ r.V.c r.V.s = blk t B := by
      funext i j
      rw [Matrix.mul_apply, Fin.sum_univ_three]
      simp only [Matrix.mul_diagonal, Matrix.transpose_apply]
      rcases (show t = 0 ∨ t = 1 by omega) with rfl | rfl
      · fin_cases i <;> fin_cases j <;> simp [rot, blk, setS] <;> first | linear_combination -a00 | linear_combination -a01 | linear_combination -a10 | linear_combination -a11
      · fin_cases i <;> fin_cases j <;> simp [rot, blk, setS] <;> first | linear_combination -a00 | linear_combination -a01 | linear_combination -a10 | linear_combination -a11
    rw [← key]; simp only [Matrix.mul_assoc]
  · rw [cu]; exact (hU.mul ru.transpose).1
  · rw [cv]; exact (hV.mul rv.transpose).1
  · rw [cu]; exact (hU.mul ru.transpose).2
  · rw [cv]; exact (hV.mul rv.transpose).2
  · simpa [setS] using hs

/-! ## The distance of matrices -/

/-- The square of the Frobenius norm. -/
def frobSq {n : Nat} (M : Matrix (Fin n) (Fin n) ℝ) : ℝ := ∑ i, ∑ j, M i j ^ 2

theorem frobSq_trace {n : Nat} (M : Matrix (Fin n) (Fin n) ℝ) : frobSq M = (M * Mᵀ).trace := by
  simp only [frobSq, Matrix.trace, Matrix.diag, Matrix.mul_apply, Matrix.transpose_apply, pow_two]

theorem frobSq_mul_left {n : Nat} {U : Matrix (Fin n) (Fin n) ℝ} (h : U * Uᵀ = 1) (M : Matrix (Fin n) (Fin n) ℝ) : frobSq (U * M) = frobSq M := by
  rw [frobSq_trace, frobSq_trace, Matrix.transpose_mul, Matrix.mul_assoc, Matrix.trace_mul_comm]
  rw [Matrix.mul_assoc, Matrix.mul_assoc, mul_eq_one_comm.1 h, Matrix.mul_one]

theorem frobSq_transpose {n : Nat} (M : Matrix (Fin n) (Fin n) ℝ) : frobSq Mᵀ = frobSq M := by
  simp only [frobSq, Matrix.transpose_apply]; exact Finset.sum_comm

theorem frobSq_mul_right {n : Nat} {U : Matrix (Fin n) (Fin n) ℝ} (h : U * Uᵀ = 1) (M : Matrix (Fin n) (Fin n) ℝ) : frobSq (M * Uᵀ) = frobSq M := by
  rw [← frobSq_transpose, Matrix.transpose_mul, Matrix.transpose_transpose, frobSq_mul_left h, frobSq_transpose]

/-- The results of `process` and what it leaves out. -/
theorem finish_block {A : Matrix (Fin 3) (Fin 3) ℝ} {x : St} (h : Good A x) {t : Nat} (ht : t < 2) {e : ℝ} (he : frobSq (mx 3 x.H - blk t x.H) ≤ e) :
    ∃ A', SG A' 1 1 (process t x.H x.U x.V) ∧ |(process t x.H x.U x.V).S (t + 1)| ≤ (process t x.H x.U x.V).S t ∧ frobSq (A - A') ≤ e := by
  obtain ⟨h1, h2⟩ := process_spec ht h.rotU h.rotV (A := mx 3 x.U * blk t x.H * (mx 3 x.V)ᵀ) rfl
  refine ⟨_, h1, h2, ?_⟩
  have : A - mx 3 x.U * blk t x.H * (mx 3 x.V)ᵀ = mx 3 x.U * (mx 3 x.H - blk t x.H) * (mx 3 x.V)ᵀ := by
    rw [Matrix.mul_sub, Matrix.sub_mul, h.rep]
  rw [this, frobSq_mul_right h.rotV.1, frobSq_mul_left h.rotU.1]
  exact he

theorem frob_blk0 (B : Mx) : frobSq (mx 3 B - blk 0 B) = B 0 2 ^ 2 + B 1 2 ^ 2 + B 2 0 ^ 2 + B 2 1 ^ 2 := by
  simp [frobSq, Fin.sum_univ_three, mx, blk]; ring

theorem frob_blk1 (B : Mx) : frobSq (mx 3 B - blk 1 B) = B 0 1 ^ 2 + B 0 2 ^ 2 + B 1 0 ^ 2 + B 2 0 ^ 2 := by
  simp [frobSq, Fin.sum_univ_three, mx, blk]

theorem finish_spec {A : Matrix (Fin 3) (Fin 3) ℝ} {x : St} {tol : ℝ} (h : Good A x) (hb : Bidiagonal x.H) (hr : ¬ Running tol x.H) :
    ∃ A', SG A' 1 1 (finish tol x) ∧ Sorted (finish tol x).S ∧ frobSq (A - A') ≤ tol ^ 2 := by
  obtain ⟨b02, b10, b20, b21⟩ := hb
  have sq : ∀ v : ℝ, |v| ≤ tol → v ^ 2 ≤ tol ^ 2 := fun v hv => by rw [← sq_abs]; exact pow_le_pow_left₀ (abs_nonneg v) hv 2
  unfold finish
  dsimp only
  split
  · rename_i h1
    obtain ⟨A', g1, g2, g3⟩ := finish_block h (t := 0) (by omega) (e := tol ^ 2) (by rw [frob_blk0, b02, b20, b21]; have := sq _ h1; linarith)
    exact ⟨A', (sortSigma0_spec g1 g2).1, (sortSigma0_spec g1 g2).2, g3⟩
  · rename_i h1
    split
    · rename_i h2
      obtain ⟨A', g1, g2, g3⟩ := finish_block h (t := 1) (by omega) (e := tol ^ 2) (by rw [frob_blk1, b02, b10, b20]; have := sq _ h2; linarith)
      exact ⟨A', (sortSigma1_spec g1 g2).1, (sortSigma1_spec g1 g2).2, g3⟩
    · rename_i h2
      split
      · rename_i h3
        have hu := unconv_unit (Givens.of 1 2) (x.H 1 2) (x.H 2 2)
        have hz := unconv_zero (Givens.of 1 2) (x.H 1 2) (x.H 2 2)
        have i1 : ((Givens.of 1 2).unconv (x.H 1 2) (x.H 2 2)).rowi = 1 := by simp
        have k1 : ((Givens.of 1 2).unconv (x.H 1 2) (x.H 2 2)).rowk = 2 := by simp
        generalize (Givens.of 1 2).unconv (x.H 1 2) (x.H 2 2) = r1 at *
        have hne : r1.rowi ≠ r1.rowk := by rw [i1, k1]; decide
        have hg := h.row (g := r1) 1 2 (by simp [i1]) (by simp [k1]) (by decide) hu
        obtain ⟨A', g1, g2, g3⟩ := finish_block hg (t := 0) (by omega) (e := tol ^ 2) (by
          rw [frob_blk0]
          dsimp only
          simp only [row_apply _ _ _ hne, i1, k1]
          norm_num
          rw [hz, b02, b10, b20, b21]
          have := sq _ h3
          have hb : (r1.s * x.H 1 1) ^ 2 ≤ x.H 1 1 ^ 2 := by
            have e : (r1.s * x.H 1 1) ^ 2 = x.H 1 1 ^ 2 - (r1.c * x.H 1 1) ^ 2 := by linear_combination x.H 1 1 ^ 2 * hu
            rw [e]; linarith [sq_nonneg (r1.c * x.H 1 1)]
          nlinarith [hb, this])
        exact ⟨A', (sortSigma0_spec g1 g2).1, (sortSigma0_spec g1 g2).2, g3⟩
      · rename_i h3
        split
        · rename_i h4
          have hu := conv_unit (Givens.of 1 2) (x.H 1 1) (x.H 1 2)
          have hz := conv_zero (Givens.of 1 2) (x.H 1 1) (x.H 1 2)
          have i1 : ((Givens.of 1 2).conv (x.H 1 1) (x.H 1 2)).rowi = 1 := by simp
          have k1 : ((Givens.of 1 2).conv (x.H 1 1) (x.H 1 2)).rowk = 2 := by simp
          generalize (Givens.of 1 2).conv (x.H 1 1) (x.H 1 2) = r1 at *
          have hne : r1.rowi ≠ r1.rowk := by rw [i1, k1]; decide
          have hg := h.col (g := r1) 1 2 (by simp [i1]) (by simp [k1]) (by decide) hu
          have c10 : r1.col 3 x.H 1 0 = 0 := by rw [col_apply _ _ _ hne, i1, k1]; simpa using b10
          have c12 : r1.col 3 x.H 1 2 = 0 := by rw [col_apply _ _ _ hne, i1, k1]; simpa using hz
          have c20 : r1.col 3 x.H 2 0 = 0 := by rw [col_apply _ _ _ hne, i1, k1]; simpa using b20
          have c21 : r1.col 3 x.H 2 1 = -r1.s * x.H 2 2 := by rw [col_apply _ _ _ hne, i1, k1]; simp [b21]
          have c22 : r1.col 3 x.H 2 2 = r1.c * x.H 2 2 := by rw [col_apply _ _ _ hne, i1, k1]; simp [b21]
          generalize r1.col 3 x.H = C at *
          have hu2 := conv_unit (Givens.of 0 2) (C 0 0) (C 0 2)
          have hz2 := conv_zero (Givens.of 0 2) (C 0 0) (C 0 2)
          have i2 : ((Givens.of 0 2).conv (C 0 0) (C 0 2)).rowi = 0 := by simp
          have k2 : ((Givens.of 0 2).conv (C 0 0) (C 0 2)).rowk = 2 := by simp
          generalize (Givens.of 0 2).conv (C 0 0) (C 0 2) = r2 at *
          have hne2 : r2.rowi ≠ r2.rowk := by rw [i2, k2]; decide
          have hg2 := hg.col (g := r2) 0 2 (by simp [i2]) (by simp [k2]) (by decide) hu2
          obtain ⟨A', g1, g2, g3⟩ := finish_block hg2 (t := 0) (by omega) (e := tol ^ 2) (by
            rw [frob_blk0]
            dsimp only
            simp only [col_apply _ _ _ hne2, i2, k2]
            norm_num
            rw [hz2, c10, c12, c20, c21, c22]
            have := sq _ h4
            have e : (0 : ℝ) ^ 2 + (r2.s * 0 + r2.c * 0) ^ 2 + (r2.c * 0 - r2.s * (r1.c * x.H 2 2)) ^ 2 + (-r1.s * x.H 2 2) ^ 2
                = x.H 2 2 ^ 2 - (r2.c * (r1.c * x.H 2 2)) ^ 2 := by linear_combination x.H 2 2 ^ 2 * hu + (r1.c * x.H 2 2) ^ 2 * hu2
            have hpos := sq_nonneg (r2.c * (r1.c * x.H 2 2))
            nlinarith [e, this, hpos])
          exact ⟨A', (sortSigma0_spec g1 g2).1, (sortSigma0_spec g1 g2).2, g3⟩
        · rename_i h4
          split
          · rename_i h5
            have hu := unconv_unit (Givens.of 0 1) (x.H 0 1) (x.H 1 1)
            have hz := unconv_zero (Givens.of 0 1) (x.H 0 1) (x.H 1 1)
            have i1 : ((Givens.of 0 1).unconv (x.H 0 1) (x.H 1 1)).rowi = 0 := by simp
            have k1 : ((Givens.of 0 1).unconv (x.H 0 1) (x.H 1 1)).rowk = 1 := by simp
            generalize (Givens.of 0 1).unconv (x.H 0 1) (x.H 1 1) = r1 at *
            have hne : r1.rowi ≠ r1.rowk := by rw [i1, k1]; decide
            have hg := h.row (g := r1) 0 1 (by simp [i1]) (by simp [k1]) (by decide) hu
            have c00 : r1.row 3 x.H 0 0 = r1.c * x.H 0 0 := by rw [row_apply _ _ _ hne, i1, k1]; simp [b10]
            have c01 : r1.row 3 x.H 0 1 = 0 := by rw [row_apply _ _ _ hne, i1, k1]; simpa using hz
            have c10 : r1.row 3 x.H 1 0 = r1.s * x.H 0 0 := by rw [row_apply _ _ _ hne, i1, k1]; simp [b10]
            have c20 : r1.row 3 x.H 2 0 = 0 := by rw [row_apply _ _ _ hne, i1, k1]; simpa using b20
            have c21 : r1.row 3 x.H 2 1 = 0 := by rw [row_apply _ _ _ hne, i1, k1]; simpa using b21
            generalize r1.row 3 x.H = C at *
            have hu2 := unconv_unit (Givens.of 0 2) (C 0 2) (C 2 2)
            have hz2 := unconv_zero (Givens.of 0 2) (C 0 2) (C 2 2)
            have i2 : ((Givens.of 0 2).unconv (C 0 2) (C 2 2)).rowi = 0 := by simp
            have k2 : ((Givens.of 0 2).unconv (C 0 2) (C 2 2)).rowk = 2 := by simp
            generalize (Givens.of 0 2).unconv (C 0 2) (C 2 2) = r2 at *
            have hne2 : r2.rowi ≠ r2.rowk := by rw [i2, k2]; decide
            have hg2 := hg.row (g := r2) 0 2 (by simp [i2]) (by simp [k2]) (by decide) hu2
            obtain ⟨A', g1, g2, g3⟩ := finish_block hg2 (t := 1) (by omega) (e := tol ^ 2) (by
              rw [frob_blk1]
              dsimp only
              simp only [row_apply _ _ _ hne2, i2, k2]
              norm_num
              rw [hz2, c01, c10, c20, c21, c00]
              have := sq _ h5
              have e : (r2.c * 0 - r2.s * 0) ^ 2 + (0 : ℝ) ^ 2 + (r1.s * x.H 0 0) ^ 2 + (r2.s * (r1.c * x.H 0 0) + r2.c * 0) ^ 2
                  = x.H 0 0 ^ 2 - (r2.c * (r1.c * x.H 0 0)) ^ 2 := by linear_combination x.H 0 0 ^ 2 * hu + (r1.c * x.H 0 0) ^ 2 * hu2
              have hpos := sq_nonneg (r2.c * (r1.c * x.H 0 0))
              nlinarith [e, this, hpos])
            exact ⟨A', (sortSigma1_spec g1 g2).1, (sortSigma1_spec g1 g2).2, g3⟩
          · rename_i h5
            exact absurd ⟨not_le.1 h5, not_le.1 h3, not_le.1 h4, not_le.1 h2, not_le.1 h1⟩ hr

theorem frobSq_nonneg {n : Nat} (M : Matrix (Fin n) (Fin n) ℝ) : 0 ≤ frobSq M :=
  Finset.sum_nonneg fun _ _ => Finset.sum_nonneg fun _ _ => sq_nonneg _

theorem frobSq_zero {n : Nat} {M : Matrix (Fin n) (Fin n) ℝ} (h : frobSq M = 0) : M = 0 := by
  funext i j
  have h1 := (Finset.sum_eq_zero_iff_of_nonneg fun i _ => Finset.sum_nonneg fun j _ => sq_nonneg (M i j)).1 h i (Finset.mem_univ _)
  have h2 := (Finset.sum_eq_zero_iff_of_nonneg fun j _ => sq_nonneg (M i j)).1 h1 j (Finset.mem_univ _)
  exact pow_eq_zero_iff (two_ne_zero) |>.1 h2

/-- For a rotation of space, the diagonal satisfies q₀₀ + q₁₁ ≤ 1 + q₂₂. -/
theorem rot_diag {Q : Matrix (Fin 3) (Fin 3) ℝ} (h : IsRot Q) : Q 0 0 + Q 1 1 ≤ 1 + Q 2 2 ∧ Q 0 0 ≤ 1 ∧ Q 1 1 ≤ 1 ∧ Q 2 2 ≤ 1 := by
  have hadj : Q.adjugate = Qᵀ := by
    have h1 : Q.adjugate * Q = 1 := by rw [Matrix.adjugate_mul, h.2, one_smul]
    have h2 : Q.adjugate * (Q * Qᵀ) = Qᵀ := by rw [← Matrix.mul_assoc, h1, Matrix.one_mul]
    rwa [h.1, Matrix.mul_one] at h2
  have e : ∀ i j, Q.adjugate i j = Q j i := fun i j => by rw [hadj]; rfl
  rw [Matrix.adjugate_fin_three] at e
  have e00 := e 0 0
  have e11 := e 1 1
  have e22 := e 2 2
  simp at e00 e11 e22
  have row : ∀ i, Q i 0 * Q i 0 + Q i 1 * Q i 1 + Q i 2 * Q i 2 = 1 := by
    intro i
    have := congrFun (congrFun h.1 i) i
    rw [Matrix.mul_apply, Fin.sum_univ_three, Matrix.one_apply_eq] at this
    simpa only [Matrix.transpose_apply] using this
  have col : ∀ j, Q 0 j * Q 0 j + Q 1 j * Q 1 j + Q 2 j * Q 2 j = 1 := by
    intro j
    have := congrFun (congrFun h.tmul j) j
    rw [Matrix.mul_apply, Fin.sum_univ_three, Matrix.one_apply_eq] at this
    simpa only [Matrix.transpose_apply] using this
  have r0 := row 0
  have r1 := row 1
  have r2 := row 2
  have k0 := col 0
  have k1 := col 1
  have k2 := col 2
  refine ⟨?_, by nlinarith [mul_self_nonneg (Q 0 1), mul_self_nonneg (Q 0 2)], by nlinarith [mul_self_nonneg (Q 1 0), mul_self_nonneg (Q 1 2)],
    by nlinarith [mul_self_nonneg (Q 2 0), mul_self_nonneg (Q 2 1)]⟩
  by_contra hc
  rw [not_le] at hc
  -- four times the squares of the components of the quaternion
  have p1 : (1 + Q 0 0 + Q 1 1 + Q 2 2) * (1 + Q 2 2 - Q 0 0 - Q 1 1) = (Q 1 0 - Q 0 1) ^ 2 := by
    linear_combination k2 - r0 - r1 - 2 * e22
  have p2 : (1 + Q 0 0 - Q 1 1 - Q 2 2) * (1 + Q 2 2 - Q 0 0 - Q 1 1) = (Q 2 0 + Q 0 2) ^ 2 := by
    linear_combination k1 - r0 - r2 + 2 * e11
  have p3 : (1 + Q 1 1 - Q 0 0 - Q 2 2) * (1 + Q 2 2 - Q 0 0 - Q 1 1) = (Q 2 1 + Q 1 2) ^ 2 := by
    linear_combination k0 - r1 - r2 + 2 * e00
  have w : 1 + Q 2 2 - Q 0 0 - Q 1 1 < 0 := by linarith
  have key : ∀ a b : ℝ, a * (1 + Q 2 2 - Q 0 0 - Q 1 1) = b ^ 2 → a ≤ 0 := by
    intro a b hab
    by_contra ha
    rw [not_le] at ha
    nlinarith [sq_nonneg b, mul_neg_of_pos_of_neg ha w]
  linarith [key _ _ p1, key _ _ p2, key _ _ p3]

theorem trace_le {P : Matrix (Fin 3) (Fin 3) ℝ} (hP : IsRot P) {S : Nat → ℝ} (h0 : S 1 ≤ S 0) (h1 : |S 2| ≤ S 1) :
    S 0 * P 0 0 + S 1 * P 1 1 + S 2 * P 2 2 ≤ S 0 + S 1 + S 2 := by
  obtain ⟨d, d0, d1, d2⟩ := rot_diag hP
  obtain ⟨l, u⟩ := abs_le.1 h1
  have hs : 0 ≤ S 1 := (abs_nonneg _).trans h1
  nlinarith [mul_nonneg (sub_nonneg.2 h0) (sub_nonneg.2 d0), mul_nonneg (by linarith : 0 ≤ S 2 + S 1) (sub_nonneg.2 d2),
    mul_nonneg hs (sub_nonneg.2 d)]

theorem frob_diag_sub {P : Matrix (Fin 3) (Fin 3) ℝ} (hP : IsRot P) {S : Nat → ℝ} :
    frobSq (Matrix.diagonal (fun i : Fin 3 => S i) - P) = S 0 ^ 2 + S 1 ^ 2 + S 2 ^ 2 + 3 - 2 * (S 0 * P 0 0 + S 1 * P 1 1 + S 2 * P 2 2) := by
  have row : ∀ i, P i 0 * P i 0 + P i 1 * P i 1 + P i 2 * P i 2 = 1 := by
    intro i
    have := congrFun (congrFun hP.1 i) i
    rw [Matrix.mul_apply, Fin.sum_univ_three, Matrix.one_apply_eq] at this
    simpa only [Matrix.transpose_apply] using this
  have r0 := row 0
  have r1 := row 1
  have r2 := row 2
  simp [frobSq, Fin.sum_univ_three]
  linear_combination r0 + r1 + r2

/-- The vectors of `gram_schmidt`. -/
theorem gramSchmidt_vectors (A : Mx) (hA : (mx 3 A).det ≠ 0) : ∃ (q1 q2 q3 : Nat → ℝ) (r11 r12 r13 r22 r23 r33 : ℝ),
    gramSchmidt A = (fun i j => if i < 3 then (if j = 0 then q1 i else if j = 1 then q2 i else if j = 2 then q3 i else 0) else 0,
      fun i j => if i = 0 then (if j = 0 then r11 else if j = 1 then r12 else if j = 2 then r13 else 0)
        else if i = 1 then (if j = 1 then r22 else if j = 2 then r23 else 0) else if i = 2 then (if j = 2 then r33 else 0) else 0) ∧
    0 < r11 ∧ 0 < r22 ∧ 0 < r33 ∧
    q1 0 * q1 0 + q1 1 * q1 1 + q1 2 * q1 2 = 1 ∧ q2 0 * q2 0 + q2 1 * q2 1 + q2 2 * q2 2 = 1 ∧ q3 0 * q3 0 + q3 1 * q3 1 + q3 2 * q3 2 = 1 ∧
    q1 0 * q2 0 + q1 1 * q2 1 + q1 2 * q2 2 = 0 ∧ q1 0 * q3 0 + q1 1 * q3 1 + q1 2 * q3 2 = 0 ∧ q2 0 * q3 0 + q2 1 * q3 1 + q2 2 * q3 2 = 0 ∧
    (∀ i, i < 3 → A i 0 = q1 i * r11) ∧ (∀ i, i < 3 → A i 1 = q1 i * r12 + q2 i * r22) ∧
    ∀ i, i < 3 → A i 2 = q1 i * r13 + q2 i * r23 + q3 i * r33 := by
  have hn : ∀ v : Mat.Store ℝ, Mat.toVec 3 v ≠ 0 → 0 < Mat.length 3 v ∧
      (∀ i, i < 3 → v i = Mat.normalized 3 v i * Mat.length 3 v) ∧
      Mat.normalized 3 v 0 * Mat.normalized 3 v 0 + Mat.normalized 3 v 1 * Mat.normalized 3 v 1 + Mat.normalized 3 v 2 * Mat.normalized 3 v 2 = 1 := by
    intro v hv
    obtain ⟨h1, h2, h3⟩ := Mat.normalized_spec 3 v hv
    refine ⟨h3, fun i hi => (congrFun h2 ⟨i, hi⟩).trans (mul_comm _ _), ?_⟩
    have := (Mat.length_spec 3 (Mat.normalized 3 v)).2
    rw [h1, Fin.sum_univ_three] at this
    simp only [Mat.toVec] at this
    simp at this
    linear_combination -this
  have hdot : ∀ a b : Mat.Store ℝ, Mat.dot 3 a b = a 0 * b 0 + a 1 * b 1 + a 2 * b 2 := by
    intro a b; simp [Mat.dot, Mat.forN_succ, Mat.forN_zero]
  have hsub : ∀ a b : Mat.Store ℝ, ∀ i, i < 3 → Mat.sub 3 a b i = a i - b i := fun a b i hi => congrFun (Mat.sub_spec 3 a b) ⟨i, hi⟩
  have hsm : ∀ (a : Mat.Store ℝ) (v : ℝ), ∀ i, i < 3 → Mat.smul 3 a v i = v * a i := fun a v i hi => congrFun (Mat.smul_spec 3 a v) ⟨i, hi⟩
  have hdet : (mx 3 A).det = A 0 0 * A 1 1 * A 2 2 - A 0 0 * A 1 2 * A 2 1 - A 0 1 * A 1 0 * A 2 2 + A 0 1 * A 1 2 * A 2 0
      + A 0 2 * A 1 0 * A 2 1 - A 0 2 * A 1 1 * A 2 0 := by
    rw [Matrix.det_fin_three]; rfl
  rw [hdet] at hA
  have hz : ∀ v : Mat.Store ℝ, Mat.toVec 3 v = 0 → v 0 = 0 ∧ v 1 = 0 ∧ v 2 = 0 := fun v hv => ⟨congrFun hv 0, congrFun hv 1, congrFun hv 2⟩
  -- the first column
  obtain ⟨d1, hd1⟩ : ∃ d : Mat.Store ℝ, d = fun i => A i 0 := ⟨_, rfl⟩
  obtain ⟨d2, hd2⟩ : ∃ d : Mat.Store ℝ, d = fun i => A i 1 := ⟨_, rfl⟩
  obtain ⟨d3, hd3⟩ : ∃ d : Mat.Store ℝ, d = fun i => A i 2 := ⟨_, rfl⟩
  have n1 : Mat.toVec 3 d1 ≠ 0 := by
    intro h
    obtain ⟨a, b, c⟩ := hz _ h
    rw [hd1] at a b c
    apply hA
    simp only at a b c
    rw [a, b, c]; ring
  obtain ⟨l1, s1, u1⟩ := hn _ n1
  obtain ⟨q1, hq1⟩ : ∃ q, q = Mat.normalized 3 d1 := ⟨_, rfl⟩
  obtain ⟨r11, hr11⟩ : ∃ q, q = Mat.length 3 d1 := ⟨_, rfl⟩
  rw [← hq1] at s1 u1
  rw [← hr11] at s1 l1
  obtain ⟨r12, hr12⟩ : ∃ q, q = Mat.dot 3 d2 q1 := ⟨_, rfl⟩
  obtain ⟨w2, hw2⟩ : ∃ q, q = Mat.sub 3 d2 (Mat.smul 3 q1 r12) := ⟨_, rfl⟩
  have e2 : ∀ i, i < 3 → w2 i = d2 i - r12 * q1 i := fun i hi => by rw [hw2, hsub _ _ _ hi, hsm _ _ _ hi]
  have n2 : Mat.toVec 3 w2 ≠ 0 := by
    intro h
    obtain ⟨a, b, c⟩ := hz _ h
    rw [e2 _ (by decide)] at a b c
    have s10 := s1 0 (by decide)
    have s11 := s1 1 (by decide)
    have s12 := s1 2 (by decide)
    rw [hd1] at s10 s11 s12
    rw [hd2] at a b c
    simp only at a b c s10 s11 s12
    apply hA
    rw [sub_eq_zero.1 a, sub_eq_zero.1 b, sub_eq_zero.1 c, s10, s11, s12]; ring
  obtain ⟨l2, s2, u2⟩ := hn _ n2
  obtain ⟨q2, hq2⟩ : ∃ q, q = Mat.normalized 3 w2 := ⟨_, rfl⟩
  obtain ⟨r22, hr22⟩ : ∃ q, q = Mat.length 3 w2 := ⟨_, rfl⟩
  rw [← hq2] at s2 u2
  rw [← hr22] at s2 l2
  have o12 : q1 0 * q2 0 + q1 1 * q2 1 + q1 2 * q2 2 = 0 := by
    have a := (s2 0 (by decide)).symm.trans (e2 0 (by decide))
    have b := (s2 1 (by decide)).symm.trans (e2 1 (by decide))
    have c := (s2 2 (by decide)).symm.trans (e2 2 (by decide))
    have hr := hr12.trans (hdot _ _)
    have : r22 * (q1 0 * q2 0 + q1 1 * q2 1 + q1 2 * q2 2) = 0 := by
      linear_combination q1 0 * a + q1 1 * b + q1 2 * c - hr - r12 * u1
    exact (mul_eq_zero.1 this).resolve_left l2.ne'
  obtain ⟨r13, hr13⟩ : ∃ q, q = Mat.dot 3 d3 q1 := ⟨_, rfl⟩
  obtain ⟨r23, hr23⟩ : ∃ q, q = Mat.dot 3 d3 q2 := ⟨_, rfl⟩
  obtain ⟨w3, hw3⟩ : ∃ q, q = Mat.sub 3 (Mat.sub 3 d3 (Mat.smul 3 q1 r13)) (Mat.smul 3 q2 r23) := ⟨_, rfl⟩
  have e3 : ∀ i, i < 3 → w3 i = d3 i - r13 * q1 i - r23 * q2 i := fun i hi => by
    rw [hw3, hsub _ _ _ hi, hsub _ _ _ hi, hsm _ _ _ hi, hsm _ _ _ hi]
  have f1 : ∀ i, i < 3 → A i 0 = q1 i * r11 := fun i hi => by have := s1 i hi; rwa [hd1] at this
  have f2 : ∀ i, i < 3 → A i 1 = q1 i * r12 + q2 i * r22 := fun i hi => by
    have := (s2 i hi).symm.trans (e2 i hi)
    rw [hd2] at this
    simp only at this
    linear_combination -this
  have n3 : Mat.toVec 3 w3 ≠ 0 := by
    intro h
    obtain ⟨a, b, c⟩ := hz _ h
    rw [e3 _ (by decide), hd3] at a b c
    apply hA
    have a : A 0 2 = r13 * q1 0 + r23 * q2 0 := by linear_combination a
    have b : A 1 2 = r13 * q1 1 + r23 * q2 1 := by linear_combination b
    have c : A 2 2 = r13 * q1 2 + r23 * q2 2 := by linear_combination c
    rw [a, b, c, f1 0 (by decide), f1 1 (by decide), f1 2 (by decide), f2 0 (by decide), f2 1 (by decide), f2 2 (by decide)]; ring
  obtain ⟨l3, s3, u3⟩ := hn _ n3
  obtain ⟨q3, hq3⟩ : ∃ q, q = Mat.normalized 3 w3 := ⟨_, rfl⟩
  obtain ⟨r33, hr33⟩ : ∃ q, q = Mat.length 3 w3 := ⟨_, rfl⟩
  rw [← hq3] at s3 u3
  rw [← hr33] at s3 l3
  have a := (s3 0 (by decide)).symm.trans (e3 0 (by decide))
  have b := (s3 1 (by decide)).symm.trans (e3 1 (by decide))
  have c := (s3 2 (by decide)).symm.trans (e3 2 (by decide))
  have k1 := hr13.trans (hdot _ _)
  have k2 := hr23.trans (hdot _ _)
  have o13 : q1 0 * q3 0 + q1 1 * q3 1 + q1 2 * q3 2 = 0 := by
    have : r33 * (q1 0 * q3 0 + q1 1 * q3 1 + q1 2 * q3 2) = 0 := by
      linear_combination q1 0 * a + q1 1 * b + q1 2 * c - k1 - r13 * u1 - r23 * o12
    exact (mul_eq_zero.1 this).resolve_left l3.ne'
  have o23 : q2 0 * q3 0 + q2 1 * q3 1 + q2 2 * q3 2 = 0 := by
    have : r33 * (q2 0 * q3 0 + q2 1 * q3 1 + q2 2 * q3 2) = 0 := by
      linear_combination q2 0 * a + q2 1 * b + q2 2 * c - k2 - r13 * o12 - r23 * u2
    exact (mul_eq_zero.1 this).resolve_left l3.ne'
  have f3 : ∀ i, i < 3 → A i 2 = q1 i * r13 + q2 i * r23 + q3 i * r33 := fun i hi => by
    have := (s3 i hi).symm.trans (e3 i hi)
    rw [hd3] at this
    simp only at this
    linear_combination -this
  refine ⟨q1, q2, q3, r11, r12, r13, r22, r23, r33, ?_, l1, l2, l3, u1, u2, u3, o12, o13, o23, f1, f2, f3⟩
  rw [gramSchmidt]
  simp only [← hd1, ← hd2, ← hd3, ← hq1, ← hr11, ← hr12, ← hw2, ← hq2, ← hr22, ← hr13, ← hr23, ← hw3, ← hq3, ← hr33]
  refine Prod.ext ?_ ?_
  · funext i j
    simp only [Mat.forN_succ, Mat.forN_zero, set]
    by_cases h0 : i = 0
    · subst h0; rcases j with _ | _ | _ | j <;> simp
    · by_cases h1 : i = 1
      · subst h1; rcases j with _ | _ | _ | j <;> simp
      · by_cases h2 : i = 2
        · subst h2; rcases j with _ | _ | _ | j <;> simp
        · have : ¬ i < 3 := by omega
          simp [h0, h1, h2, this]
  · funext i j
    simp only [set]
    by_cases h0 : i = 0
    · subst h0; rcases j with _ | _ | _ | j <;> simp
    · by_cases h1 : i = 1
      · subst h1; rcases j with _ | _ | _ | j <;> simp
      · by_cases h2 : i = 2
        · subst h2; rcases j with _ | _ | _ | j <;> simp
        · simp [h0, h1, h2]

end Verif.Rot
