import Verif.Proof.Elastic
import Mathlib.LinearAlgebra.Matrix.Adjugate
import Mathlib.Analysis.Asymptotics.Lemmas
import Mathlib.Tactic.NormNum

/-! Helper lemmas for C78: the sum of the singular values along a line; the determinant along a line. -/
namespace Verif.Elastic

open Matrix
open Verif.Mat (Store upd forN forN_inv)
open Verif.Rot (Mx mx IsRot frobSq)

theorem deriv_of_quadratic {f : ℝ → ℝ} {a K : ℝ} (h : ∀ t, |f t - f 0 - t * a| ≤ K * t ^ 2) : HasDerivAt f a 0 := by
  rw [hasDerivAt_iff_isLittleO_nhds_zero]
  have h1 : (fun t : ℝ => f (0 + t) - f 0 - t • a) =O[nhds 0] fun t : ℝ => t ^ 2 := by
    refine Asymptotics.IsBigO.of_bound K (Filter.Eventually.of_forall fun t => ?_)
    rw [zero_add, smul_eq_mul, Real.norm_eq_abs, Real.norm_eq_abs, abs_of_nonneg (sq_nonneg t)]
    exact h t
  exact h1.trans_isLittleO (Asymptotics.isLittleO_pow_id one_lt_two)

/-- The sum of the singular values. -/
def nuc (n : Nat) (S : Store ℝ) : ℝ := ∑ i : Fin n, S i

theorem trace_rot {n : Nat} {F : Mx} {d : Svd} (h : IsSvd n F d) (R : Matrix (Fin n) (Fin n) ℝ) :
    (Rᵀ * mx n F).trace = ∑ i : Fin n, d.S i * ((mx n d.V)ᵀ * Rᵀ * mx n d.U) i i := by
  have e : (Rᵀ * mx n F).trace = ((mx n d.V)ᵀ * Rᵀ * mx n d.U * diagonal (fun i : Fin n => d.S i)).trace := by
    rw [h.eq, ← Matrix.mul_assoc, ← Matrix.mul_assoc, Matrix.trace_mul_comm]
    simp only [Matrix.mul_assoc]
  rw [e]
  simp only [Matrix.trace, Matrix.diag, Matrix.mul_diagonal]
  exact Finset.sum_congr rfl fun i _ => mul_comm _ _

theorem frob_sub_rot {n : Nat} {R Q : Matrix (Fin n) (Fin n) ℝ} (hR : IsRot R) (hQ : IsRot Q) : frobSq (R - Q) = 2 * (n - (Rᵀ * Q).trace) := by
  have h1 : frobSq (R - Q) = (Rᵀ * R).trace - 2 * (Rᵀ * Q).trace + (Qᵀ * Q).trace := by
    simp only [frobSq, Matrix.trace, Matrix.diag, Matrix.mul_apply, Matrix.transpose_apply, Matrix.sub_apply, Finset.mul_sum]
    rw [← Finset.sum_sub_distrib, ← Finset.sum_add_distrib, Finset.sum_comm]
    refine Finset.sum_congr rfl fun i _ => ?_
    rw [← Finset.sum_sub_distrib, ← Finset.sum_add_distrib]
    exact Finset.sum_congr rfl fun j _ => by ring
  rw [h1, hR.tmul, hQ.tmul, Matrix.trace_one, Fintype.card_fin]; ring

theorem nuc_deriv {n : Nat} {svd : Mx → Svd} (hs : ∀ F, IsSvd n F (svd F))
    (hb : ∀ F (Q : Matrix (Fin n) (Fin n) ℝ), IsRot Q → 0 ≤ ∑ i : Fin n, (svd F).S i * (1 - Q i i)) {F : Mx} {m : ℝ} (hm : 0 < m)
    (hF : ∀ Q : Matrix (Fin n) (Fin n) ℝ, IsRot Q → m / 2 * ∑ i : Fin n, (1 - Q i i) ≤ ∑ i : Fin n, (svd F).S i * (1 - Q i i)) (G : Mx) :
    HasDerivAt (fun t => nuc n (svd (line F G t)).S) ((mx n (svd F).U * (mx n (svd F).V)ᵀ)ᵀ * mx n G).trace 0 := by
  have split : ∀ (S : Store ℝ) (Q : Matrix (Fin n) (Fin n) ℝ), ∑ i : Fin n, S i * (1 - Q i i) = nuc n S - ∑ i : Fin n, S i * Q i i := fun S Q => by
    rw [nuc, ← Finset.sum_sub_distrib]; exact Finset.sum_congr rfl fun i _ => by ring
  have hQ : ∀ (d : Svd) (R : Matrix (Fin n) (Fin n) ℝ), IsRot (mx n d.U) → IsRot (mx n d.V) → IsRot R → IsRot ((mx n d.V)ᵀ * Rᵀ * mx n d.U) :=
    fun d R hU hV hR => (hV.transpose.mul hR.transpose).mul hU
  have own : ∀ F, ((mx n (svd F).U * (mx n (svd F).V)ᵀ)ᵀ * mx n F).trace = nuc n (svd F).S := fun F => by
    have h := hs F
    rw [trace_rot h]
    have e : (mx n (svd F).V)ᵀ * (mx n (svd F).U * (mx n (svd F).V)ᵀ)ᵀ * mx n (svd F).U = 1 := by
      rw [Matrix.transpose_mul, Matrix.transpose_transpose, ← Matrix.mul_assoc, h.rotV.tmul, Matrix.one_mul, h.rotU.tmul]
    rw [e]; simp [nuc]
  have h0 : line F G 0 = F := by funext i j; simp [line]
  refine deriv_of_quadratic (K := frobSq (mx n G) / m) fun t => ?_
  obtain ⟨Ft, hFt⟩ : ∃ Ft, Ft = line F G t := ⟨_, rfl⟩
  rw [h0, ← hFt]
  obtain ⟨R, hR⟩ : ∃ R, R = mx n (svd F).U * (mx n (svd F).V)ᵀ := ⟨_, rfl⟩
  obtain ⟨Rt, hRt⟩ : ∃ Rt, Rt = mx n (svd Ft).U * (mx n (svd Ft).V)ᵀ := ⟨_, rfl⟩
  have rR : IsRot R := hR ▸ (hs F).rotU.mul (hs F).rotV.transpose
  have rRt : IsRot Rt := hRt ▸ (hs Ft).rotU.mul (hs Ft).rotV.transpose
  rw [← hR]
  have hmt : mx n Ft = mx n F + t • mx n G := by rw [hFt, line_mx]
  have tr_split : ∀ Q : Matrix (Fin n) (Fin n) ℝ, (Qᵀ * mx n Ft).trace = (Qᵀ * mx n F).trace + t * (Qᵀ * mx n G).trace := fun Q => by
    rw [hmt, Matrix.mul_add, Matrix.mul_smul, Matrix.trace_add, Matrix.trace_smul, smul_eq_mul]
  -- lower bound
  have lo : 0 ≤ nuc n (svd Ft).S - nuc n (svd F).S - t * (Rᵀ * mx n G).trace := by
    have h1 := hb Ft _ (hQ (svd Ft) R (hs Ft).rotU (hs Ft).rotV rR)
    rw [split, ← trace_rot (hs Ft) R, tr_split, hR, own, ← hR] at h1
    linarith
  -- upper bound
  have hi : nuc n (svd Ft).S - nuc n (svd F).S - t * (Rᵀ * mx n G).trace ≤ frobSq (mx n G) / m * t ^ 2 := by
    have h1 := hF _ (hQ (svd F) Rt (hs F).rotU (hs F).rotV rRt)
    rw [split, ← trace_rot (hs F) Rt] at h1
    have h2 : (Rtᵀ * mx n Ft).trace = nuc n (svd Ft).S := by rw [hRt]; exact own Ft
    rw [tr_split] at h2
    have h3 := frob_sub_rot rRt rR
    have h4 : ∑ i : Fin n, (1 - ((mx n (svd F).V)ᵀ * Rtᵀ * mx n (svd F).U) i i) = n - (Rtᵀ * R).trace := by
      rw [Finset.sum_sub_distrib]
      simp only [Finset.sum_const, Finset.card_univ, Fintype.card_fin, nsmul_eq_mul, mul_one]
      congr 1
      change ((mx n (svd F).V)ᵀ * Rtᵀ * mx n (svd F).U).trace = _
      rw [hR, Matrix.mul_assoc, Matrix.trace_mul_comm, Matrix.mul_assoc]
    rw [h4] at h1
    have h5 : t * ((Rtᵀ * mx n G).trace - (Rᵀ * mx n G).trace) ≤ m / 4 * frobSq (Rt - R) + frobSq (mx n G) / m * t ^ 2 := by
      rw [← Matrix.trace_sub, ← Matrix.sub_mul, ← Matrix.transpose_sub]
      simp only [frobSq, Matrix.trace, Matrix.diag, Matrix.mul_apply, Matrix.transpose_apply, Finset.mul_sum, Finset.sum_div, Finset.sum_mul]
      rw [Finset.sum_comm, ← Finset.sum_add_distrib]
      refine Finset.sum_le_sum fun i _ => ?_
      rw [← Finset.sum_add_distrib]
      refine Finset.sum_le_sum fun j _ => ?_
      have hsq := sq_nonneg (m / 2 * (Rt - R) i j - t * mx n G i j)
      have e : m / 4 * (Rt - R) i j ^ 2 + mx n G i j ^ 2 / m * t ^ 2 - t * ((Rt - R) i j * mx n G i j)
          = (m / 2 * (Rt - R) i j - t * mx n G i j) ^ 2 / m := by field_simp; ring
      have := div_nonneg hsq hm.le
      linarith
    nlinarith [h1, h2, h3, h5]
  rw [abs_of_nonneg lo]; exact hi

theorem rot_le3 {Q : Matrix (Fin 3) (Fin 3) ℝ} (h : IsRot Q) {S : Store ℝ} {m : ℝ} (hp : ∀ i j, i < j → j < 3 → m ≤ S i + S j) :
    m / 2 * ∑ i : Fin 3, (1 - Q i i) ≤ ∑ i : Fin 3, S i * (1 - Q i i) := by
  have tri : ∀ {a b c : Fin 3}, a ≠ b → b ≠ c → a ≠ c → Q a a + Q b b ≤ 1 + Q c c := by
    intro a b c hab hbc hac
    have e : ∀ σ : Equiv.Perm (Fin 3), IsRot (Q.submatrix σ σ) := fun σ => by
      refine ⟨?_, by rw [Matrix.det_submatrix_equiv_self, h.2]⟩
      rw [Matrix.transpose_submatrix, Matrix.submatrix_mul_equiv, h.1, Matrix.submatrix_one_equiv]
    fin_cases a <;> fin_cases b <;> fin_cases c <;> simp at hab hbc hac <;> simp
    · have := (Rot.rot_diag h).1; linarith
    · have := (Rot.rot_diag (e (Equiv.swap 1 2))).1; simp [Equiv.swap_apply_def] at this; linarith
    · have := (Rot.rot_diag h).1; linarith
    · have := (Rot.rot_diag (e (Equiv.swap 0 2))).1; simp [Equiv.swap_apply_def] at this; linarith
    · have := (Rot.rot_diag (e (Equiv.swap 1 2))).1; simp [Equiv.swap_apply_def] at this; linarith
    · have := (Rot.rot_diag (e (Equiv.swap 0 2))).1; simp [Equiv.swap_apply_def] at this; linarith
  have t0 := tri (a := 0) (b := 1) (c := 2) (by decide) (by decide) (by decide)
  have t1 := tri (a := 0) (b := 2) (c := 1) (by decide) (by decide) (by decide)
  have t2 := tri (a := 1) (b := 2) (c := 0) (by decide) (by decide) (by decide)
  have p0 := hp 0 1 (by norm_num) (by norm_num)
  have p1 := hp 0 2 (by norm_num) (by norm_num)
  have p2 := hp 1 2 (by norm_num) (by norm_num)
  rw [Fin.sum_univ_three, Fin.sum_univ_three]
  change m / 2 * _ ≤ S 0 * (1 - Q 0 0) + S 1 * (1 - Q 1 1) + S 2 * (1 - Q 2 2)
  nlinarith [mul_nonneg (sub_nonneg.2 t0) (sub_nonneg.2 p0), mul_nonneg (sub_nonneg.2 t1) (sub_nonneg.2 p1), mul_nonneg (sub_nonneg.2 t2) (sub_nonneg.2 p2)]

theorem rot_le2 {Q : Matrix (Fin 2) (Fin 2) ℝ} (h : IsRot Q) {S : Store ℝ} {m : ℝ} (hp : m ≤ S 0 + S 1) :
    m / 2 * ∑ i : Fin 2, (1 - Q i i) ≤ ∑ i : Fin 2, S i * (1 - Q i i) := by
  have h1 := congrFun (congrFun h.1 0) 0
  have h2 := congrFun (congrFun h.1 0) 1
  have h4 := congrFun (congrFun h.1 1) 1
  have h3 := h.2
  rw [Matrix.det_fin_two] at h3
  simp [Matrix.mul_apply, Fin.sum_univ_two] at h1 h2 h4
  have e : Q 0 0 = Q 1 1 := by
    linear_combination (-Q 0 0) * h4 + Q 1 0 * h2 + Q 1 1 * h3
  have hle : Q 0 0 ≤ 1 := by nlinarith [mul_self_nonneg (Q 0 1), mul_self_nonneg (Q 0 0 - 1)]
  rw [Fin.sum_univ_two, Fin.sum_univ_two]
  change m / 2 * _ ≤ S 0 * (1 - Q 0 0) + S 1 * (1 - Q 1 1)
  rw [← e]
  nlinarith [mul_nonneg (sub_nonneg.2 hle) (sub_nonneg.2 hp)]

/-! ## The determinant -/

theorem cubic_deriv {f : ℝ → ℝ} (a b c d : ℝ) (h : ∀ t, f t = a + b * t + c * t ^ 2 + d * t ^ 3) : HasDerivAt f b 0 := by
  have : f = fun t => a + b * t + c * t ^ 2 + d * t ^ 3 := funext h
  rw [this]
  refine (((((hasDerivAt_id (0 : ℝ)).const_mul b).const_add a).add ((hasDerivAt_pow 2 (0 : ℝ)).const_mul c)).add
    ((hasDerivAt_pow 3 (0 : ℝ)).const_mul d)).congr_deriv ?_
  simp

theorem det_line3 (M N : Matrix (Fin 3) (Fin 3) ℝ) : HasDerivAt (fun t : ℝ => (M + t • N).det) (M.adjugate * N).trace 0 := by
  refine cubic_deriv M.det _ (N.adjugate * M).trace N.det fun t => ?_
  simp only [Matrix.det_fin_three, Matrix.adjugate_fin_three, Matrix.trace, Matrix.diag, Matrix.mul_apply, Fin.sum_univ_three, Matrix.add_apply,
    Matrix.smul_apply, smul_eq_mul]
  simp
  ring

theorem det_line2 (M N : Matrix (Fin 2) (Fin 2) ℝ) : HasDerivAt (fun t : ℝ => (M + t • N).det) (M.adjugate * N).trace 0 := by
  refine cubic_deriv M.det _ N.det 0 fun t => ?_
  simp only [Matrix.det_fin_two, Matrix.adjugate_fin_two, Matrix.trace, Matrix.diag, Matrix.mul_apply, Fin.sum_univ_two, Matrix.add_apply,
    Matrix.smul_apply, smul_eq_mul]
  simp
  ring

theorem adj_rot {n : Nat} {U : Matrix (Fin n) (Fin n) ℝ} (h : IsRot U) : U.adjugate = Uᵀ := by
  have h1 : U.adjugate * U = 1 := by rw [Matrix.adjugate_mul, h.2, one_smul]
  calc U.adjugate = U.adjugate * (U * Uᵀ) := by rw [h.1, Matrix.mul_one]
    _ = Uᵀ := by rw [← Matrix.mul_assoc, h1, Matrix.one_mul]

theorem IsSvd.adj {n : Nat} {F : Mx} {d : Svd} (h : IsSvd n F d) :
    (mx n F).adjugate = mx n d.V * (diagonal (fun i : Fin n => d.S i)).adjugate * (mx n d.U)ᵀ := by
  rw [h.eq, Matrix.adjugate_mul_distrib, Matrix.adjugate_mul_distrib, adj_rot h.rotU, adj_rot h.rotV.transpose, Matrix.transpose_transpose,
    Matrix.mul_assoc]

theorem adj_diag {n : Nat} (hn : n = 2 ∨ n = 3) (S : Store ℝ) : (diagonal (fun i : Fin n => S i)).adjugate = diagonal fun i : Fin n => sprod n S i := by
  rcases hn with rfl | rfl
  · rw [Matrix.adjugate_fin_two]
    ext i j; fin_cases i <;> fin_cases j <;> simp [sprod, upd]
  · rw [Matrix.adjugate_fin_three]
    ext i j; fin_cases i <;> fin_cases j <;> simp [sprod, upd] <;> ring

/-! ## The fixed corotated model -/

theorem fcr_energy (mu lam : ℝ) {n : Nat} {F : Mx} {d : Svd} (h : IsSvd n F d) :
    (fixedCorotated mu lam).energy n d = mu * (frobSq (mx n F) - 2 * nuc n d.S + n) + 1 / 2 * lam * ((mx n F).det - 1) * ((mx n F).det - 1) := by
  rw [h.norm, h.det]
  simp only [fixedCorotated, Iso.energy]
  congr 2
  rw [l2_sum, l2_sum, nuc, Finset.mul_sum, ← Finset.sum_sub_distrib]
  have : (n : ℝ) = ∑ _i : Fin n, (1 : ℝ) := by simp
  rw [this, ← Finset.sum_add_distrib]
  exact Finset.sum_congr rfl fun i _ => by ring

theorem fcr_piola (mu lam : ℝ) {n : Nat} (hn : n = 2 ∨ n = 3) {F : Mx} {d : Svd} (h : IsSvd n F d) :
    mx n ((fixedCorotated mu lam).piola n d) = (2 * mu) • (mx n F - mx n d.U * (mx n d.V)ᵀ) + (lam * ((mx n F).det - 1)) • ((mx n F).adjugate)ᵀ := by
  have ht : ((mx n F).adjugate)ᵀ = mx n d.U * (diagonal fun i : Fin n => sprod n d.S i) * (mx n d.V)ᵀ := by
    rw [h.adj, adj_diag hn, Matrix.transpose_mul, Matrix.transpose_mul, Matrix.transpose_transpose, Matrix.diagonal_transpose, Matrix.mul_assoc]
  rw [piola_mx, ht, h.det]
  conv_rhs => rw [h.eq]
  have e : diagonal (fun i : Fin n => (fixedCorotated mu lam).dpsi n d.S i) =
      (2 * mu) • (diagonal (fun i : Fin n => d.S i) - 1) + (lam * (Mat.prod n d.S - 1)) • diagonal (fun i : Fin n => sprod n d.S i) := by
    rw [← Matrix.diagonal_one, Matrix.diagonal_sub, ← Matrix.diagonal_smul, ← Matrix.diagonal_smul, Matrix.diagonal_add]
    congr 1
    funext i
    simp only [fixedCorotated, Pi.smul_apply, smul_eq_mul]
    ring
  rw [e, Matrix.mul_add, Matrix.add_mul, Matrix.mul_smul, Matrix.smul_mul, Matrix.mul_smul, Matrix.smul_mul, Matrix.mul_sub, Matrix.sub_mul, Matrix.mul_one]

end Verif.Elastic
