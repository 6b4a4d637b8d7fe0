import Verif.Spec.Elastic
import Verif.Proof.ElasticSigma
import Verif.Proof.GivensSvd
import Mathlib.LinearAlgebra.Matrix.Charpoly.Coeff
import Mathlib.LinearAlgebra.Matrix.NonsingularInverse
import Mathlib.Topology.Instances.Matrix
import Mathlib.Analysis.Calculus.Deriv.Slope
import Mathlib.Analysis.Calculus.Deriv.Polynomial

/-! Helper lemmas for C78: derivatives of determinants and inverses, tangents in the frame of the singular vectors. -/
namespace Verif.Elastic

open Matrix
open Verif.Mat (Store upd forN forN_inv)
open Verif.Rot (Mx mx IsRot frobSq)

theorem mul_mx (n : Nat) (A B : Mx) : mx n (Rot.mul n A B) = mx n A * mx n B := by
  funext i j
  rw [Matrix.mul_apply]
  exact Mat.forN_sum n fun k => A i k * B k j

theorem transpose_mx (n : Nat) (A : Mx) : mx n (Rot.transpose A) = (mx n A)ᵀ := rfl

theorem line_mx (n : Nat) (F G : Mx) (t : ℝ) : mx n (line F G t) = mx n F + t • mx n G := by
  funext i j; simp [mx, line]

theorem inner_trace (n : Nat) (A B : Mx) : inner n A B = ((mx n A)ᵀ * mx n B).trace := by
  simp only [inner, Matrix.trace, Matrix.diag, Matrix.mul_apply, Matrix.transpose_apply, mx]
  exact Finset.sum_comm

theorem piola_mx (m : Iso) (n : Nat) (d : Svd) :
    mx n (m.piola n d) = mx n d.U * diagonal (fun i : Fin n => m.dpsi n d.S i) * (mx n d.V)ᵀ := by
  rw [Iso.piola]
  rw [mul_mx, transpose_mx]
  congr 1
  funext i j
  rw [Matrix.mul_diagonal]; rfl

/-! ## The decomposition -/

theorem l2_sum (n : Nat) (S : Store ℝ) : Mat.l2NormSqr n S = ∑ i : Fin n, S i * S i := Mat.forN_sum n fun i => S i * S i

theorem prod_prod (n : Nat) (S : Store ℝ) : Mat.prod n S = ∏ i : Fin n, S i := by
  rw [Fin.prod_univ_eq_prod_range S n, Mat.prod]
  induction n with
  | zero => rfl
  | succ n ih => rw [Mat.forN_succ, ih, Finset.prod_range_succ]

theorem IsSvd.det {n : Nat} {F : Mx} {d : Svd} (h : IsSvd n F d) : (mx n F).det = Mat.prod n d.S := by
  rw [h.eq, Matrix.det_mul, Matrix.det_mul, Matrix.det_transpose, h.rotU.2, h.rotV.2, Matrix.det_diagonal, prod_prod]; ring

theorem IsSvd.norm {n : Nat} {F : Mx} {d : Svd} (h : IsSvd n F d) : frobSq (mx n F) = Mat.l2NormSqr n d.S := by
  rw [h.eq, Rot.frobSq_mul_right h.rotV.1, Rot.frobSq_mul_left h.rotU.1, l2_sum]
  simp only [frobSq]
  refine Finset.sum_congr rfl fun i _ => ?_
  rw [Finset.sum_eq_single i]
  · rw [Matrix.diagonal_apply_eq]; ring
  · intro j _ hj; rw [Matrix.diagonal_apply_ne _ (Ne.symm hj)]; ring
  · simp

theorem IsSvd.ne {n : Nat} {F : Mx} {d : Svd} (h : IsSvd n F d) (hd : (mx n F).det ≠ 0) (i : Fin n) : d.S i ≠ 0 := by
  rw [h.det, prod_prod] at hd
  exact fun h0 => hd (Finset.prod_eq_zero (Finset.mem_univ i) h0)

theorem IsSvd.inv {n : Nat} {F : Mx} {d : Svd} (h : IsSvd n F d) (hd : (mx n F).det ≠ 0) :
    (mx n F)⁻¹ = mx n d.V * diagonal (fun i : Fin n => 1 / d.S i) * (mx n d.U)ᵀ := by
  refine Matrix.inv_eq_right_inv ?_
  have hD : diagonal (fun i : Fin n => d.S i) * diagonal (fun i : Fin n => 1 / d.S i) = 1 := by
    rw [Matrix.diagonal_mul_diagonal, ← Matrix.diagonal_one]
    congr 1; funext i; exact mul_one_div_cancel (h.ne hd i)
  calc _ = mx n d.U * (diagonal (fun i : Fin n => d.S i) * ((mx n d.V)ᵀ * mx n d.V) * diagonal (fun i : Fin n => 1 / d.S i)) * (mx n d.U)ᵀ := by
        rw [h.eq]; simp only [Matrix.mul_assoc]
    _ = 1 := by rw [h.rotV.tmul, Matrix.mul_one, hD, Matrix.mul_one, h.rotU.1]

/-! ## Derivatives along a line -/

theorem det_line {n : Nat} {M : Matrix (Fin n) (Fin n) ℝ} (N : Matrix (Fin n) (Fin n) ℝ) (h : M.det ≠ 0) :
    HasDerivAt (fun t : ℝ => (M + t • N).det) (M.det * (M⁻¹ * N).trace) 0 := by
  have hu : IsUnit M.det := isUnit_iff_ne_zero.2 h
  have e : ∀ t : ℝ, (M + t • N).det = M.det * (1 + (M⁻¹ * N).trace * t
      + (det (1 + (Polynomial.X : Polynomial ℝ) • (M⁻¹ * N).map Polynomial.C)).divX.divX.eval t * t ^ 2) := by
    intro t
    rw [← Matrix.det_one_add_smul, ← Matrix.det_mul, Matrix.mul_add, Matrix.mul_one, Matrix.mul_smul, ← Matrix.mul_assoc, Matrix.mul_nonsing_inv M hu,
      Matrix.one_mul]
  simp only [e]
  have h2 := (((hasDerivAt_id (0 : ℝ)).const_mul ((M⁻¹ * N).trace)).const_add 1).add
    ((Polynomial.hasDerivAt ((det (1 + (Polynomial.X : Polynomial ℝ) • (M⁻¹ * N).map Polynomial.C)).divX.divX) 0).mul (hasDerivAt_pow 2 (0 : ℝ)))
  refine (h2.const_mul M.det).congr_deriv ?_
  simp

theorem small_deriv {g : ℝ → ℝ} (a : ℝ) (hg : ContinuousAt g 0) : HasDerivAt (fun t => a + t * g t) (g 0) 0 := by
  rw [hasDerivAt_iff_tendsto_slope_zero]
  have h1 : Filter.Tendsto g (nhdsWithin 0 {0}ᶜ) (nhds (g 0)) := hg.tendsto.mono_left nhdsWithin_le_nhds
  refine h1.congr' ?_
  filter_upwards [self_mem_nhdsWithin] with t ht
  have ht' : t ≠ 0 := ht
  simp only [zero_add, zero_mul, add_zero, smul_eq_mul, add_sub_cancel_left]
  field_simp

theorem line_continuous {n : Nat} (M N : Matrix (Fin n) (Fin n) ℝ) : Continuous fun t : ℝ => M + t • N :=
  continuous_const.add (continuous_id.smul continuous_const)

theorem line_det_ne {n : Nat} {M : Matrix (Fin n) (Fin n) ℝ} (N : Matrix (Fin n) (Fin n) ℝ) (h : 0 < M.det) :
    ∀ᶠ t : ℝ in nhds 0, 0 < (M + t • N).det := by
  have hc := (line_continuous M N).matrix_det
  refine hc.continuousAt.eventually_const_lt ?_
  simpa using h

theorem inv_line {n : Nat} {M : Matrix (Fin n) (Fin n) ℝ} (N : Matrix (Fin n) (Fin n) ℝ) (h : 0 < M.det) (i j : Fin n) :
    HasDerivAt (fun t : ℝ => (M + t • N)⁻¹ i j) (-(M⁻¹ * N * M⁻¹) i j) 0 := by
  have hcX : ContinuousAt (fun t : ℝ => (M + t • N)⁻¹) 0 := by
    simp only [Matrix.inv_def, Ring.inverse_eq_inv']
    have hcd : ContinuousAt (fun t : ℝ => ((M + t • N).det)⁻¹) 0 := ContinuousAt.inv₀ (line_continuous M N).matrix_det.continuousAt (by simpa using h.ne')
    exact hcd.smul (line_continuous M N).matrix_adjugate.continuousAt
  have hg : ContinuousAt (fun t : ℝ => -(M⁻¹ * N * (M + t • N)⁻¹) i j) 0 := by
    simp only [Matrix.mul_apply (M := M⁻¹ * N)]
    refine ContinuousAt.neg ?_
    refine tendsto_finsetSum _ fun k _ => ?_
    refine ContinuousAt.mul (f := fun _ => (M⁻¹ * N) i k) continuousAt_const ?_
    exact ((continuous_apply j).continuousAt.comp ((continuous_apply k).continuousAt.comp hcX))
  have hd := small_deriv (M⁻¹ i j) hg
  simp only [zero_smul, add_zero] at hd
  refine hd.congr_of_eventuallyEq ?_
  filter_upwards [line_det_ne N h] with t ht
  have hu : IsUnit M.det := isUnit_iff_ne_zero.2 h.ne'
  have hu' : IsUnit (M + t • N).det := isUnit_iff_ne_zero.2 ht.ne'
  have e : (M + t • N)⁻¹ = M⁻¹ + t • -(M⁻¹ * N * (M + t • N)⁻¹) := by
    have h1 : M⁻¹ * (M + t • N) * (M + t • N)⁻¹ = M⁻¹ := by rw [Matrix.mul_assoc, Matrix.mul_nonsing_inv _ hu', Matrix.mul_one]
    rw [Matrix.mul_add, Matrix.nonsing_inv_mul _ hu, Matrix.add_mul, Matrix.one_mul, Matrix.mul_smul, Matrix.smul_mul] at h1
    rw [smul_neg, ← sub_eq_add_neg, eq_sub_iff_add_eq]
    exact h1
  have := congrFun (congrFun e i) j
  simpa using this

theorem frob_line {n : Nat} (F G : Mx) : HasDerivAt (fun t : ℝ => frobSq (mx n F + t • mx n G)) (2 * inner n F G) 0 := by
  have e : ∀ t : ℝ, frobSq (mx n F + t • mx n G) = frobSq (mx n F) + 2 * inner n F G * t + frobSq (mx n G) * (t * t) := by
    intro t
    simp only [frobSq, inner, Finset.mul_sum, Finset.sum_mul, ← Finset.sum_add_distrib]
    refine Finset.sum_congr rfl fun i _ => Finset.sum_congr rfl fun j _ => ?_
    simp [mx]; ring
  have := quad_deriv _ _ _ 0 e
  simpa using this

/-! ## The filled matrix -/

theorem fillSym_apply (n : Nat) (f : Nat → Nat → Nat → Nat → ℝ) (hf : ∀ i j r s, f i j r s = f r s i j) {p q : Nat} (hp : p < n * n) (hq : q < n * n) :
    fillSym n f p q = f (p - p / n * n) (p / n) (q - q / n * n) (q / n) := by
  have key : ∀ p q, p < n * n → q < n * n → fillSym n f p q = f (p - p / n * n) (p / n) (q - q / n * n) (q / n) := by
    rw [fillSym]
    refine forN_inv (P := fun m (H : Mx) => ∀ p q, p < m → q < m → H p q = f (p - p / n * n) (p / n) (q - q / n * n) (q / n)) ?_ ?_
    · intro p q hp; omega
    · intro m _ H hH
      have := forN_inv (n := m + 1) (s := H)
        (P := fun k (H : Mx) => ∀ p q, (p < m ∧ q < m) ∨ (p = m ∧ q < k) ∨ (q = m ∧ p < k) → H p q = f (p - p / n * n) (p / n) (q - q / n * n) (q / n))
        (f := fun H sr => Rot.set (Rot.set H sr m (f (m - m / n * n) (m / n) (sr - sr / n * n) (sr / n))) m sr
          (f (m - m / n * n) (m / n) (sr - sr / n * n) (sr / n))) ?_ ?_
      · intro p q hp hq
        exact this p q (by omega)
      · intro p q h
        rcases h with h | h | h
        · exact hH p q h.1 h.2
        · omega
        · omega
      · intro k hk H' ih p q h
        simp only [Rot.set]
        by_cases h1 : p = m ∧ q = k
        · rw [if_pos h1, h1.1, h1.2]
        · rw [if_neg h1]
          by_cases h2 : p = k ∧ q = m
          · rw [if_pos h2, h2.1, h2.2, hf]
          · rw [if_neg h2]
            refine ih p q ?_
            omega
  exact key p q hp hq

/-! ## Tangents in the frame of the singular vectors -/

/-- The product of the tangent with a matrix, in the frame. -/
def frame3 (A B0 B1 B2 : Mx) (G : Matrix (Fin 3) (Fin 3) ℝ) : Matrix (Fin 3) (Fin 3) ℝ :=
  !![A 0 0 * G 0 0 + A 0 1 * G 1 1 + A 0 2 * G 2 2, B0 0 0 * G 0 1 + B0 0 1 * G 1 0, B2 1 1 * G 0 2 + B2 1 0 * G 2 0;
     B0 1 0 * G 0 1 + B0 1 1 * G 1 0, A 1 0 * G 0 0 + A 1 1 * G 1 1 + A 1 2 * G 2 2, B1 0 0 * G 1 2 + B1 0 1 * G 2 1;
     B2 0 1 * G 0 2 + B2 0 0 * G 2 0, B1 1 0 * G 1 2 + B1 1 1 * G 2 1, A 2 0 * G 0 0 + A 2 1 * G 1 1 + A 2 2 * G 2 2]

def frame2 (A B : Mx) (G : Matrix (Fin 2) (Fin 2) ℝ) : Matrix (Fin 2) (Fin 2) ℝ :=
  !![A 0 0 * G 0 0 + A 0 1 * G 1 1, B 0 0 * G 0 1 + B 0 1 * G 1 0;
     B 1 0 * G 0 1 + B 1 1 * G 1 0, A 1 0 * G 0 0 + A 1 1 * G 1 1]

theorem contract3 (A B0 B1 B2 U V G : Mx) (i j : Fin 3) :
    ∑ r : Fin 3, ∑ s : Fin 3, entry3 A B0 B1 B2 U V i j r s * G r s =
      (mx 3 U * frame3 A B0 B1 B2 ((mx 3 U)ᵀ * mx 3 G * mx 3 V) * (mx 3 V)ᵀ) i j := by
  simp only [Matrix.mul_apply, Fin.sum_univ_three, Matrix.transpose_apply, frame3, mx, entry3]
  simp
  ring

theorem contract2 (A B U V G : Mx) (i j : Fin 2) :
    ∑ r : Fin 2, ∑ s : Fin 2, entry2 A B U V i j r s * G r s =
      (mx 2 U * frame2 A B ((mx 2 U)ᵀ * mx 2 G * mx 2 V) * (mx 2 V)ᵀ) i j := by
  simp only [Matrix.mul_apply, Fin.sum_univ_two, Matrix.transpose_apply, frame2, mx, entry2]
  simp
  ring

theorem entry3_symm {A B0 B1 B2 : Mx} (hA : ∀ i j, i < 3 → j < 3 → A i j = A j i) (h0 : B0 0 1 = B0 1 0) (h1 : B1 0 1 = B1 1 0) (h2 : B2 0 1 = B2 1 0)
    (U V : Mx) (i j r s : Nat) : entry3 A B0 B1 B2 U V i j r s = entry3 A B0 B1 B2 U V r s i j := by
  simp only [entry3]
  rw [hA 1 0 (by norm_num) (by norm_num), hA 2 0 (by norm_num) (by norm_num), hA 2 1 (by norm_num) (by norm_num), h0, h1, h2]
  ring

theorem entry2_symm {A B : Mx} (hA : A 0 1 = A 1 0) (h0 : B 0 1 = B 1 0)
    (U V : Mx) (i j r s : Nat) : entry2 A B U V i j r s = entry2 A B U V r s i j := by
  simp only [entry2]
  rw [hA, h0]
  ring

theorem pos3 (n i j : Nat) (hi : i < n) : j * n + i - (j * n + i) / n * n = i ∧ (j * n + i) / n = j := by
  have h : (j * n + i) / n = j := by
    rw [Nat.add_comm, Nat.add_mul_div_right _ _ (by omega : 0 < n), Nat.div_eq_of_lt hi, Nat.zero_add]
  rw [h]; omega

theorem pos_lt {n i j : Nat} (hi : i < n) (hj : j < n) : j * n + i < n * n := by
  calc j * n + i < j * n + n := by omega
    _ = (j + 1) * n := by ring
    _ ≤ n * n := Nat.mul_le_mul_right n hj

theorem fill_contract (n : Nat) (f : Nat → Nat → Nat → Nat → ℝ) (hf : ∀ i j r s, f i j r s = f r s i j) (G : Mx) {i j : Nat} (hi : i < n) (hj : j < n) :
    ∑ r : Fin n, ∑ s : Fin n, fillSym n f (j * n + i) (s * n + r) * G r s = ∑ r : Fin n, ∑ s : Fin n, f i j r s * G r s := by
  refine Finset.sum_congr rfl fun r _ => Finset.sum_congr rfl fun s _ => ?_
  rw [fillSym_apply n f hf (pos_lt hi hj) (pos_lt r.2 s.2), (pos3 n i j hi).1, (pos3 n i j hi).2, (pos3 n r s r.2).1, (pos3 n r s r.2).2]

theorem computeBij_symm (clamp : ℝ) (n : Nat) (S e c : Store ℝ) (i : Nat) : computeBij clamp n S e c i 0 1 = computeBij clamp n S e c i 1 0 := by
  simp [computeBij, Rot.set]

theorem pull_back {n : Nat} (U V T : Matrix (Fin n) (Fin n) ℝ) (G : Mx) :
    ∑ i : Fin n, ∑ j : Fin n, (U * T * Vᵀ) i j * G i j = (Tᵀ * (Uᵀ * mx n G * V)).trace := by
  have h : ∑ i : Fin n, ∑ j : Fin n, (U * T * Vᵀ) i j * G i j = ((U * T * Vᵀ)ᵀ * mx n G).trace := by
    simp only [Matrix.trace, Matrix.diag, Matrix.mul_apply (N := mx n G), Matrix.transpose_apply, mx]
    exact Finset.sum_comm
  rw [h, Matrix.transpose_mul, Matrix.transpose_mul, Matrix.transpose_transpose, Matrix.mul_assoc V, Matrix.trace_mul_comm]
  simp only [Matrix.mul_assoc]

theorem psd_frame3 (A B0 B1 B2 : Mx) (G : Matrix (Fin 3) (Fin 3) ℝ) :
    ((frame3 A B0 B1 B2 G)ᵀ * G).trace = ![G 0 0, G 1 1, G 2 2] ⬝ᵥ (mx 3 A *ᵥ ![G 0 0, G 1 1, G 2 2])
      + ![G 0 1, G 1 0] ⬝ᵥ (mx 2 B0 *ᵥ ![G 0 1, G 1 0]) + ![G 1 2, G 2 1] ⬝ᵥ (mx 2 B1 *ᵥ ![G 1 2, G 2 1])
      + ![G 2 0, G 0 2] ⬝ᵥ (mx 2 B2 *ᵥ ![G 2 0, G 0 2]) := by
  simp [Matrix.trace, Matrix.mul_apply, Fin.sum_univ_three, frame3, dotProduct, Matrix.mulVec, Fin.sum_univ_two, mx]
  ring

theorem psd_frame2 (A B : Mx) (G : Matrix (Fin 2) (Fin 2) ℝ) :
    ((frame2 A B G)ᵀ * G).trace = ![G 0 0, G 1 1] ⬝ᵥ (mx 2 A *ᵥ ![G 0 0, G 1 1]) + ![G 0 1, G 1 0] ⬝ᵥ (mx 2 B *ᵥ ![G 0 1, G 1 0]) := by
  simp [Matrix.trace, Matrix.mul_apply, frame2, dotProduct, Matrix.mulVec, Fin.sum_univ_two, mx]
  ring

/-! ## The Neo-Hookean model -/

theorem nh_energy (mu lam : ℝ) {n : Nat} {F : Mx} {d : Svd} (h : IsSvd n F d) :
    (neoHookean mu lam).energy n d = 1 / 2 * mu * (frobSq (mx n F) - n) - (mu - 1 / 2 * lam * Real.log (mx n F).det) * Real.log (mx n F).det := by
  rw [h.norm, h.det]; rfl

theorem svd_inv_transpose {n : Nat} {F : Mx} {d : Svd} (h : IsSvd n F d) (hd : (mx n F).det ≠ 0) :
    ((mx n F)⁻¹)ᵀ = mx n d.U * diagonal (fun i : Fin n => 1 / d.S i) * (mx n d.V)ᵀ := by
  rw [h.inv hd, Matrix.transpose_mul, Matrix.transpose_mul, Matrix.transpose_transpose, Matrix.diagonal_transpose, Matrix.mul_assoc]

theorem nh_piola (mu lam : ℝ) {n : Nat} {F : Mx} {d : Svd} (h : IsSvd n F d) (hd : (mx n F).det ≠ 0) :
    mx n ((neoHookean mu lam).piola n d) = mu • mx n F + (lam * Real.log (mx n F).det - mu) • ((mx n F)⁻¹)ᵀ := by
  rw [piola_mx, svd_inv_transpose h hd, h.det]
  conv_rhs => rw [h.eq]
  have e : diagonal (fun i : Fin n => (neoHookean mu lam).dpsi n d.S i) =
      mu • diagonal (fun i : Fin n => d.S i) + (lam * Real.log (Mat.prod n d.S) - mu) • diagonal (fun i : Fin n => 1 / d.S i) := by
    rw [← Matrix.diagonal_smul, ← Matrix.diagonal_smul, Matrix.diagonal_add]
    congr 1
    funext i
    simp only [neoHookean, Pi.smul_apply, smul_eq_mul]
    ring
  rw [e, Matrix.mul_add, Matrix.add_mul, Matrix.mul_smul, Matrix.smul_mul, Matrix.mul_smul, Matrix.smul_mul]

/-- The derivative of the stress in the frame. -/
noncomputable def nhFrame (mu lam L : ℝ) {n : Nat} (S : Store ℝ) (G : Matrix (Fin n) (Fin n) ℝ) : Matrix (Fin n) (Fin n) ℝ :=
  mu • G + (lam * (diagonal (fun i : Fin n => 1 / S i) * G).trace) • diagonal (fun i : Fin n => 1 / S i)
    - (lam * L - mu) • (diagonal (fun i : Fin n => 1 / S i) * Gᵀ * diagonal (fun i : Fin n => 1 / S i))

theorem nh_back (mu lam : ℝ) {n : Nat} {F : Mx} {d : Svd} (h : IsSvd n F d) (hd : (mx n F).det ≠ 0) (N : Matrix (Fin n) (Fin n) ℝ) (L : ℝ) :
    mx n d.U * nhFrame mu lam L d.S ((mx n d.U)ᵀ * N * mx n d.V) * (mx n d.V)ᵀ =
      mu • N + (lam * ((mx n F)⁻¹ * N).trace) • ((mx n F)⁻¹)ᵀ - (lam * L - mu) • ((mx n F)⁻¹ * N * (mx n F)⁻¹)ᵀ := by
  have hi := h.inv hd
  have ht := svd_inv_transpose h hd
  have e1 : mx n d.U * ((mx n d.U)ᵀ * N * mx n d.V) * (mx n d.V)ᵀ = N := by
    calc _ = (mx n d.U * (mx n d.U)ᵀ) * N * (mx n d.V * (mx n d.V)ᵀ) := by simp only [Matrix.mul_assoc]
      _ = N := by rw [h.rotU.1, h.rotV.1, Matrix.one_mul, Matrix.mul_one]
  have e2 : (diagonal (fun i : Fin n => 1 / d.S i) * ((mx n d.U)ᵀ * N * mx n d.V)).trace = ((mx n F)⁻¹ * N).trace := by
    rw [hi, Matrix.mul_assoc (mx n d.V), Matrix.mul_assoc (mx n d.V), ← Matrix.mul_assoc _ _ (mx n d.V), Matrix.trace_mul_comm]
    simp only [Matrix.mul_assoc]
  have e3 : mx n d.U * (diagonal (fun i : Fin n => 1 / d.S i) * ((mx n d.U)ᵀ * N * mx n d.V)ᵀ * diagonal (fun i : Fin n => 1 / d.S i)) * (mx n d.V)ᵀ
      = ((mx n F)⁻¹ * N * (mx n F)⁻¹)ᵀ := by
    have : ((mx n F)⁻¹ * N * (mx n F)⁻¹)ᵀ = ((mx n F)⁻¹)ᵀ * (Nᵀ * ((mx n F)⁻¹)ᵀ) := by rw [Matrix.transpose_mul, Matrix.transpose_mul]
    rw [this, ht]
    simp only [Matrix.transpose_mul, Matrix.transpose_transpose, Matrix.mul_assoc]
  rw [nhFrame, Matrix.mul_sub, Matrix.mul_add, Matrix.sub_mul, Matrix.add_mul, Matrix.mul_smul, Matrix.mul_smul, Matrix.mul_smul, Matrix.smul_mul,
    Matrix.smul_mul, Matrix.smul_mul, e1, e2, e3, ← ht]

theorem nh_bij (mu lam L : ℝ) {clamp a b : ℝ} (ha : a ≠ 0) (hb : b ≠ 0) (hc : 0 < clamp) (h : clamp ≤ a + b) :
    (mu + (mu - lam * L) / (a * b)) * (1 / 2)
        + (mu * (a - 1 / a) + lam * (1 / a) * L + (mu * (b - 1 / b) + lam * (1 / b) * L)) / (max (a + b) clamp + max (a + b) clamp) = mu ∧
      (mu + (mu - lam * L) / (a * b)) * (1 / 2)
        - (mu * (a - 1 / a) + lam * (1 / a) * L + (mu * (b - 1 / b) + lam * (1 / b) * L)) / (max (a + b) clamp + max (a + b) clamp) =
          (mu - lam * L) / (a * b) := by
  have hs : a + b ≠ 0 := (lt_of_lt_of_le hc h).ne'
  have e : (mu * (a - 1 / a) + lam * (1 / a) * L + (mu * (b - 1 / b) + lam * (1 / b) * L)) / ((a + b) + (a + b)) =
      (mu - (mu - lam * L) / (a * b)) * (1 / 2) := by
    have : a + b + (a + b) = 2 * (a + b) := by ring
    rw [this]
    field_simp; ring
  rw [max_eq_left h, e]
  constructor <;> ring

theorem nh_frame3 (mu lam : ℝ) {clamp : ℝ} (hc : 0 < clamp) {S : Store ℝ} (hS : ∀ i < 3, S i ≠ 0) (hp : ∀ i j, i < j → j < 3 → clamp ≤ S i + S j)
    (G : Matrix (Fin 3) (Fin 3) ℝ) :
    let m := neoHookean mu lam
    let B := computeBij clamp 3 S (m.dpsi 3 S) (m.bij 3 S)
    frame3 (m.d2psi 3 S) (B 0) (B 1) (B 2) G = nhFrame mu lam (Real.log (Mat.prod 3 S)) S G := by
  intro m B
  have h0 := hS 0 (by norm_num); have h1 := hS 1 (by norm_num); have h2 := hS 2 (by norm_num)
  have b0 := nh_bij mu lam (Real.log (Mat.prod 3 S)) h0 h1 hc (hp 0 1 (by norm_num) (by norm_num))
  have b1 := nh_bij mu lam (Real.log (Mat.prod 3 S)) h1 h2 hc (hp 1 2 (by norm_num) (by norm_num))
  have b2 := nh_bij mu lam (Real.log (Mat.prod 3 S)) h2 h0 hc (by rw [add_comm]; exact hp 0 2 (by norm_num) (by norm_num))
  have B00 : B 0 0 0 = mu ∧ B 0 0 1 = (mu - lam * Real.log (Mat.prod 3 S)) / (S 0 * S 1) ∧ B 0 1 0 = (mu - lam * Real.log (Mat.prod 3 S)) / (S 0 * S 1)
      ∧ B 0 1 1 = mu := by
    simp only [B, m, computeBij, Rot.set, neoHookean, upd]
    exact ⟨b0.1, b0.2, b0.2, b0.1⟩
  have B10 : B 1 0 0 = mu ∧ B 1 0 1 = (mu - lam * Real.log (Mat.prod 3 S)) / (S 1 * S 2) ∧ B 1 1 0 = (mu - lam * Real.log (Mat.prod 3 S)) / (S 1 * S 2)
      ∧ B 1 1 1 = mu := by
    simp only [B, m, computeBij, Rot.set, neoHookean, upd]
    exact ⟨b1.1, b1.2, b1.2, b1.1⟩
  have B20 : B 2 0 0 = mu ∧ B 2 0 1 = (mu - lam * Real.log (Mat.prod 3 S)) / (S 2 * S 0) ∧ B 2 1 0 = (mu - lam * Real.log (Mat.prod 3 S)) / (S 2 * S 0)
      ∧ B 2 1 1 = mu := by
    simp only [B, m, computeBij, Rot.set, neoHookean, upd]
    exact ⟨b2.1, b2.2, b2.2, b2.1⟩
  have hA : ∀ i j, i < 3 → j < 3 → m.d2psi 3 S i j = _ := fun i j hi hj => nh_d2 mu lam S (le_refl 3) hi hj
  funext i j
  rw [frame3, B00.1, B00.2.1, B00.2.2.1, B00.2.2.2, B10.1, B10.2.1, B10.2.2.1, B10.2.2.2, B20.1, B20.2.1, B20.2.2.1, B20.2.2.2]
  rw [hA 0 0 (by norm_num) (by norm_num), hA 0 1 (by norm_num) (by norm_num), hA 0 2 (by norm_num) (by norm_num), hA 1 0 (by norm_num) (by norm_num),
    hA 1 1 (by norm_num) (by norm_num), hA 1 2 (by norm_num) (by norm_num), hA 2 0 (by norm_num) (by norm_num), hA 2 1 (by norm_num) (by norm_num),
    hA 2 2 (by norm_num) (by norm_num)]
  generalize Real.log (Mat.prod 3 S) = L
  have ht : (diagonal (fun i : Fin 3 => 1 / S i) * G).trace = G 0 0 / S 0 + G 1 1 / S 1 + G 2 2 / S 2 := by
    simp [Matrix.trace, Matrix.diag, Fin.sum_univ_three, Matrix.diagonal_mul]; ring
  simp only [nhFrame, Matrix.sub_apply, Matrix.add_apply, Matrix.smul_apply, Matrix.diagonal_mul, Matrix.mul_diagonal, ht, Matrix.transpose_apply,
    smul_eq_mul]
  fin_cases i <;> fin_cases j <;> simp [Matrix.diagonal_apply] <;> field_simp <;> ring

theorem nh_frame2 (mu lam : ℝ) {clamp : ℝ} (hc : 0 < clamp) {S : Store ℝ} (hS : ∀ i < 2, S i ≠ 0) (hp : clamp ≤ S 0 + S 1)
    (G : Matrix (Fin 2) (Fin 2) ℝ) :
    let m := neoHookean mu lam
    let B := computeBij clamp 2 S (m.dpsi 2 S) (m.bij 2 S)
    frame2 (m.d2psi 2 S) (B 0) G = nhFrame mu lam (Real.log (Mat.prod 2 S)) S G := by
  intro m B
  have h0 := hS 0 (by norm_num); have h1 := hS 1 (by norm_num)
  have b0 := nh_bij mu lam (Real.log (Mat.prod 2 S)) h0 h1 hc hp
  have B00 : B 0 0 0 = mu ∧ B 0 0 1 = (mu - lam * Real.log (Mat.prod 2 S)) / (S 0 * S 1) ∧ B 0 1 0 = (mu - lam * Real.log (Mat.prod 2 S)) / (S 0 * S 1)
      ∧ B 0 1 1 = mu := by
    have hp2 : (mu + (mu - lam * Real.log (Mat.prod 2 S)) / Mat.prod 2 S) * (1 / 2) = (mu + (mu - lam * Real.log (Mat.prod 2 S)) / (S 0 * S 1)) * (1 / 2) := by
      congr 3; exact prod_two S
    simp only [B, m, computeBij, Rot.set, neoHookean, upd]
    simp only [Nat.reduceAdd, Nat.reduceMod, if_true, hp2]
    exact ⟨b0.1, b0.2, b0.2, b0.1⟩
  have hA : ∀ i j, i < 2 → j < 2 → m.d2psi 2 S i j = _ := fun i j hi hj => nh_d2 mu lam S (by norm_num) hi hj
  funext i j
  rw [frame2, B00.1, B00.2.1, B00.2.2.1, B00.2.2.2]
  rw [hA 0 0 (by norm_num) (by norm_num), hA 0 1 (by norm_num) (by norm_num), hA 1 0 (by norm_num) (by norm_num),
    hA 1 1 (by norm_num) (by norm_num)]
  generalize Real.log (Mat.prod 2 S) = L
  have ht : (diagonal (fun i : Fin 2 => 1 / S i) * G).trace = G 0 0 / S 0 + G 1 1 / S 1 := by
    simp [Matrix.trace, Matrix.diag, Fin.sum_univ_two, Matrix.diagonal_mul]; ring
  simp only [nhFrame, Matrix.sub_apply, Matrix.add_apply, Matrix.smul_apply, Matrix.diagonal_mul, Matrix.mul_diagonal, ht, Matrix.transpose_apply,
    smul_eq_mul]
  fin_cases i <;> fin_cases j <;> simp [Matrix.diagonal_apply] <;> field_simp <;> ring

end Verif.Elastic
