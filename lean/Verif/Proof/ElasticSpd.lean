import Verif.Proof.ElasticInv

/-! Helper lemmas for C78: the projected tangent of the stable Neo-Hookean model. -/
namespace Verif.Elastic

open Matrix
open Verif.Mat (Store upd forN forN_inv)
open Verif.Rot (Mx mx IsRot frobSq)

/-- The matrices in the frame: stretches, flips, twists. -/
noncomputable def spdW (E : Mx) (k : Nat) : Matrix (Fin 3) (Fin 3) ℝ := if k < 3 then diagonal fun i : Fin 3 => E i k else mx 3 (spdQ k)

theorem spdVector_at (U V E : Mx) {k : Nat} (i j : Fin 3) : spdVector U V E k (j * 3 + i) = (mx 3 U * spdW E k * (mx 3 V)ᵀ) i j := by
  have hq : ∀ l, vectorize 3 (Rot.mul 3 (Rot.mul 3 U (spdQ l)) (Rot.transpose V)) (j * 3 + i) = (mx 3 U * mx 3 (spdQ l) * (mx 3 V)ᵀ) i j := fun l => by
    rw [vectorize_at 3 _ i.2]
    have : mx 3 (Rot.mul 3 (Rot.mul 3 U (spdQ l)) (Rot.transpose V)) = mx 3 U * mx 3 (spdQ l) * (mx 3 V)ᵀ := by rw [mul_mx, mul_mx, transpose_mx]
    exact congrFun (congrFun this i) j
  by_cases hk : k < 3
  · simp only [spdVector, hk, if_true, spdW]
    rw [Mat.forN_sum 3 fun d => vectorize 3 (Rot.mul 3 (Rot.mul 3 U (spdQ d)) (Rot.transpose V)) (j * 3 + i) * E d k]
    simp only [hq]
    simp only [Fin.sum_univ_three, Matrix.mul_apply, Matrix.transpose_apply, mx, spdQ]
    simp [Matrix.diagonal_apply]
    ring
  · simp only [spdVector, hk, if_false, spdW]
    exact hq k

theorem spd_sum (n : Nat) (vals : Store ℝ) (vecs : Nat → Store ℝ) (p q : Nat) :
    forN n (fun (H : Mx) k => fun p q => H p q + vals k * (vecs k p * vecs k q)) (fun _ _ => 0) p q = ∑ k : Fin n, vals k * (vecs k p * vecs k q) := by
  rw [Fin.sum_univ_eq_sum_range (fun k => vals k * (vecs k p * vecs k q)) n]
  induction n with
  | zero => rfl
  | succ n ih => rw [Mat.forN_succ, ih, Finset.sum_range_succ]

/-- A sum of multiples of products of vectors, applied to a matrix. -/
theorem spd_contract (U V E : Mx) (vals : Store ℝ) (G : Mx) (i j : Fin 3) :
    ∑ r : Fin 3, ∑ s : Fin 3,
        (∑ k : Fin 9, vals k * (spdVector U V E k (j * 3 + i) * spdVector U V E k (s * 3 + r))) * G r s =
      (mx 3 U * (∑ k : Fin 9, (vals k * ((spdW E k)ᵀ * ((mx 3 U)ᵀ * mx 3 G * mx 3 V)).trace) • spdW E k) * (mx 3 V)ᵀ) i j := by
  have h1 : ∀ k : Fin 9, ∑ r : Fin 3, ∑ s : Fin 3, spdVector U V E k (s * 3 + r) * G r s = ((spdW E k)ᵀ * ((mx 3 U)ᵀ * mx 3 G * mx 3 V)).trace := fun k => by
    rw [← pull_back]
    exact Finset.sum_congr rfl fun r _ => Finset.sum_congr rfl fun s _ => by rw [spdVector_at]
  have h2 : ∑ r : Fin 3, ∑ s : Fin 3,
        (∑ k : Fin 9, vals k * (spdVector U V E k (j * 3 + i) * spdVector U V E k (s * 3 + r))) * G r s =
      ∑ k : Fin 9, vals k * spdVector U V E k (j * 3 + i) * ∑ r : Fin 3, ∑ s : Fin 3, spdVector U V E k (s * 3 + r) * G r s := by
    simp only [Finset.sum_mul, Finset.mul_sum]
    rw [Finset.sum_congr rfl fun r _ => Finset.sum_comm, Finset.sum_comm]
    exact Finset.sum_congr rfl fun k _ => Finset.sum_congr rfl fun r _ => Finset.sum_congr rfl fun s _ => by ring
  rw [h2, Matrix.mul_sum, Matrix.sum_mul, Matrix.sum_apply]
  refine Finset.sum_congr rfl fun k _ => ?_
  rw [h1, spdVector_at, Matrix.mul_smul, Matrix.smul_mul, Matrix.smul_apply, smul_eq_mul]
  ring

/-- The derivative of the stress in the frame. -/
noncomputable def stableFrame (mu lam J : ℝ) (D G : Matrix (Fin 3) (Fin 3) ℝ) : Matrix (Fin 3) (Fin 3) ℝ :=
  mu • G + (lam * (D.adjugate * G).trace) • D.adjugateᵀ + (lam * (J - 1) - mu) • ((D + G).adjugate - D.adjugate - G.adjugate)ᵀ

theorem adj_sandwich {U V : Matrix (Fin 3) (Fin 3) ℝ} (hU : IsRot U) (hV : IsRot V) (X : Matrix (Fin 3) (Fin 3) ℝ) :
    (U * X * Vᵀ).adjugateᵀ = U * X.adjugateᵀ * Vᵀ := by
  rw [Matrix.adjugate_mul_distrib, Matrix.adjugate_mul_distrib, adj_rot hU, adj_rot hV.transpose, Matrix.transpose_transpose, Matrix.transpose_mul,
    Matrix.transpose_mul, Matrix.transpose_transpose]

theorem stable_back (mu lam J : ℝ) {U V : Matrix (Fin 3) (Fin 3) ℝ} (hU : IsRot U) (hV : IsRot V) (D G : Matrix (Fin 3) (Fin 3) ℝ) :
    U * stableFrame mu lam J D G * Vᵀ = stableFrame mu lam J (U * D * Vᵀ) (U * G * Vᵀ) := by
  have ht : ((U * D * Vᵀ).adjugate * (U * G * Vᵀ)).trace = (D.adjugate * G).trace := by
    have : (U * D * Vᵀ).adjugate = V * D.adjugate * Uᵀ := by
      rw [Matrix.adjugate_mul_distrib, Matrix.adjugate_mul_distrib, adj_rot hU, adj_rot hV.transpose, Matrix.transpose_transpose, Matrix.mul_assoc]
    rw [this]
    calc _ = (V * (D.adjugate * (Uᵀ * U) * G * Vᵀ)).trace := by simp only [Matrix.mul_assoc]
      _ = (D.adjugate * G * (Vᵀ * V)).trace := by rw [hU.tmul, Matrix.mul_one, Matrix.trace_mul_comm]; simp only [Matrix.mul_assoc]
      _ = _ := by rw [hV.tmul, Matrix.mul_one]
  have hadd : U * D * Vᵀ + U * G * Vᵀ = U * (D + G) * Vᵀ := by rw [Matrix.mul_add, Matrix.add_mul]
  simp only [stableFrame, ht, hadd, Matrix.transpose_sub, adj_sandwich hU hV]
  simp only [Matrix.mul_add, Matrix.add_mul, Matrix.mul_smul, Matrix.smul_mul, Matrix.mul_sub, Matrix.sub_mul]

/-- The tangent of the model, in the frame. -/
theorem stable_tangent (mu lam i1 : ℝ) (g1 : Store ℝ) (h1 F G : Mx) (i j : Fin 3) :
    ∑ r : Fin 3, ∑ s : Fin 3, (stableNeoHookean mu lam).tangent 3 i1 g1 h1 F (j * 3 + i) (s * 3 + r) * G r s =
      stableFrame mu lam (i3 3 F) (mx 3 F) (mx 3 G) i j := by
  have hH := i2Hess_contract 3 G i.2 j.2
  have hK := i3Hess_line3 F G 1 i j
  have hl : mx 3 (line F G 1) = mx 3 F + mx 3 G := by rw [line_mx, one_smul]
  have ha : ∀ X : Mx, i3Mat 3 X i j = (mx 3 X).adjugateᵀ i j := fun X => by rw [← i3Mat_adj (Or.inr rfl)]; rfl
  rw [ha, ha, ha, hl] at hK
  have expand : ∀ r s : Fin 3, (stableNeoHookean mu lam).tangent 3 i1 g1 h1 F (j * 3 + i) (s * 3 + r) * G r s =
      1 / 2 * mu * (i2Hess 3 (j * 3 + i) (s * 3 + r) * G r s) + (lam * i3Mat 3 F i j * (i3Mat 3 F r s * G r s)
        + (-mu + lam * (i3 3 F - 1)) * (i3Hess 3 F (j * 3 + i) (s * 3 + r) * G r s)) := fun r s => by
    simp only [Inv.tangent, stableNeoHookean, invariants, i3Mat]; norm_num; ring
  simp only [expand, Finset.sum_add_distrib, ← Finset.mul_sum, hH]
  have hin := inner_adj (Or.inr rfl : (3 : Nat) = 2 ∨ (3 : Nat) = 3) F G
  rw [inner] at hin
  rw [hin, ha]
  simp only [stableFrame, Matrix.add_apply, Matrix.smul_apply, smul_eq_mul, Matrix.transpose_apply, Matrix.sub_apply] at hK ⊢
  have hS : ∑ r : Fin 3, ∑ s : Fin 3, i3Hess 3 F (j * 3 + i) (s * 3 + r) * G r s =
      (mx 3 F + mx 3 G).adjugate j i - (mx 3 F).adjugate j i - (mx 3 G).adjugate j i := by linarith
  rw [hS]
  simp only [mx]; ring

/-- The sum over the nine vectors, in the frame. -/
theorem spd_frame (mu lam : ℝ) {S : Store ℝ} (hS : ∀ k < 3, S k ≠ 0) {e : Store ℝ} {E : Mx}
    (hE : mx 3 (stretching mu lam (S 0 * S 1 * S 2) S) = mx 3 E * diagonal (fun i : Fin 3 => e i) * (mx 3 E)ᵀ) (G : Matrix (Fin 3) (Fin 3) ℝ) :
    ∑ k : Fin 9, (spdValues mu lam (S 0 * S 1 * S 2) S e k * ((spdW E k)ᵀ * G).trace) • spdW E k =
      stableFrame mu lam (S 0 * S 1 * S 2) (diagonal fun i : Fin 3 => S i) G := by
  have h0 := hS 0 (by norm_num); have h1 := hS 1 (by norm_num); have h2 := hS 2 (by norm_num)
  have w2 : (√2 : ℝ)⁻¹ * (√2 : ℝ)⁻¹ = 1 / 2 := by
    rw [← mul_inv, Real.mul_self_sqrt (by norm_num)]; norm_num
  have A : ∀ a b : Fin 3, stretching mu lam (S 0 * S 1 * S 2) S a b = E a 0 * e 0 * E b 0 + E a 1 * e 1 * E b 1 + E a 2 * e 2 * E b 2 := fun a b => by
    have := congrFun (congrFun hE a) b
    rw [Matrix.mul_apply] at this
    simp only [Fin.sum_univ_three, Matrix.mul_diagonal, Matrix.transpose_apply, mx] at this
    exact this
  have tr : ∀ W : Matrix (Fin 3) (Fin 3) ℝ, (Wᵀ * G).trace = W 0 0 * G 0 0 + W 1 0 * G 1 0 + W 2 0 * G 2 0 + (W 0 1 * G 0 1 + W 1 1 * G 1 1 + W 2 1 * G 2 1)
      + (W 0 2 * G 0 2 + W 1 2 * G 1 2 + W 2 2 * G 2 2) := fun W => by
    simp [Matrix.trace, Matrix.mul_apply, Fin.sum_univ_three]
  have A00 : mu + lam * (S 1 * S 2) * (S 1 * S 2) = _ := Eq.trans (by simp [stretching, Rot.set]; field_simp) (A 0 0)
  have A11 : mu + lam * (S 0 * S 2) * (S 0 * S 2) = _ := Eq.trans (by simp [stretching, Rot.set]; field_simp) (A 1 1)
  have A22 : mu + lam * (S 0 * S 1) * (S 0 * S 1) = _ := Eq.trans (by simp [stretching, Rot.set]; field_simp) (A 2 2)
  have A01 := A 0 1; have A02 := A 0 2; have A12 := A 1 2; have A10 := A 1 0; have A20 := A 2 0; have A21 := A 2 1
  simp [stretching, Rot.set] at A01 A02 A12 A10 A20 A21
  simp only [Fin.val_zero, Fin.val_one, Fin.val_two] at A00 A11 A22
  obtain ⟨w, hw⟩ : ∃ w, w = (√2 : ℝ)⁻¹ := ⟨_, rfl⟩
  rw [← hw] at w2
  have W0 : spdW E 0 = !![E 0 0, 0, 0; 0, E 1 0, 0; 0, 0, E 2 0] := by
    ext i j; fin_cases i <;> fin_cases j <;> simp [spdW, spdQ, mx, hw]
  have W1 : spdW E 1 = !![E 0 1, 0, 0; 0, E 1 1, 0; 0, 0, E 2 1] := by
    ext i j; fin_cases i <;> fin_cases j <;> simp [spdW, spdQ, mx, hw]
  have W2 : spdW E 2 = !![E 0 2, 0, 0; 0, E 1 2, 0; 0, 0, E 2 2] := by
    ext i j; fin_cases i <;> fin_cases j <;> simp [spdW, spdQ, mx, hw]
  have W3 : spdW E 3 = !![0, -w, 0; w, 0, 0; 0, 0, 0] := by
    ext i j; fin_cases i <;> fin_cases j <;> simp [spdW, spdQ, mx, hw]
  have W4 : spdW E 4 = !![0, 0, 0; 0, 0, w; 0, -w, 0] := by
    ext i j; fin_cases i <;> fin_cases j <;> simp [spdW, spdQ, mx, hw]
  have W5 : spdW E 5 = !![0, 0, w; 0, 0, 0; -w, 0, 0] := by
    ext i j; fin_cases i <;> fin_cases j <;> simp [spdW, spdQ, mx, hw]
  have W6 : spdW E 6 = !![0, w, 0; w, 0, 0; 0, 0, 0] := by
    ext i j; fin_cases i <;> fin_cases j <;> simp [spdW, spdQ, mx, hw]
  have W7 : spdW E 7 = !![0, 0, 0; 0, 0, w; 0, w, 0] := by
    ext i j; fin_cases i <;> fin_cases j <;> simp [spdW, spdQ, mx, hw]
  have W8 : spdW E 8 = !![0, 0, w; 0, 0, 0; w, 0, 0] := by
    ext i j; fin_cases i <;> fin_cases j <;> simp [spdW, spdQ, mx, hw]
  have sum9 : ∀ f : Nat → Matrix (Fin 3) (Fin 3) ℝ, ∑ k : Fin 9, f k = f 0 + f 1 + f 2 + f 3 + f 4 + f 5 + f 6 + f 7 + f 8 := fun f => by
    rw [Fin.sum_univ_eq_sum_range f 9]; simp [Finset.sum_range_succ]
  rw [sum9 fun k => (spdValues mu lam (S 0 * S 1 * S 2) S e k * ((spdW E k)ᵀ * G).trace) • spdW E k]
  rw [W0, W1, W2, W3, W4, W5, W6, W7, W8]
  simp only [tr, stableFrame, Matrix.adjugate_fin_three]
  ext i j
  fin_cases i <;> fin_cases j
  · simp [spdValues, Mat.write, Matrix.trace, Matrix.mul_apply, Fin.sum_univ_three, Matrix.vecMul, dotProduct]
    linear_combination (-G 0 0) * A00 - G 1 1 * A01 - G 2 2 * A02
  · simp [spdValues, Mat.write, Matrix.trace, Matrix.mul_apply, Fin.sum_univ_three]
    linear_combination (2 * (mu * G 0 1 - (lam * (S 0 * S 1 * S 2 - 1) - mu) * S 2 * G 1 0)) * w2
  · simp [spdValues, Mat.write, Matrix.trace, Matrix.mul_apply, Fin.sum_univ_three]
    linear_combination (2 * (mu * G 0 2 - (lam * (S 0 * S 1 * S 2 - 1) - mu) * S 1 * G 2 0)) * w2
  · simp [spdValues, Mat.write, Matrix.trace, Matrix.mul_apply, Fin.sum_univ_three]
    linear_combination (2 * (mu * G 1 0 - (lam * (S 0 * S 1 * S 2 - 1) - mu) * S 2 * G 0 1)) * w2
  · simp [spdValues, Mat.write, Matrix.trace, Matrix.mul_apply, Fin.sum_univ_three, Matrix.vecMul, dotProduct]
    linear_combination (-G 0 0) * A10 - G 1 1 * A11 - G 2 2 * A12
  · simp [spdValues, Mat.write, Matrix.trace, Matrix.mul_apply, Fin.sum_univ_three]
    linear_combination (2 * (mu * G 1 2 - (lam * (S 0 * S 1 * S 2 - 1) - mu) * S 0 * G 2 1)) * w2
  · simp [spdValues, Mat.write, Matrix.trace, Matrix.mul_apply, Fin.sum_univ_three]
    linear_combination (2 * (mu * G 2 0 - (lam * (S 0 * S 1 * S 2 - 1) - mu) * S 1 * G 0 2)) * w2
  · simp [spdValues, Mat.write, Matrix.trace, Matrix.mul_apply, Fin.sum_univ_three]
    linear_combination (2 * (mu * G 2 1 - (lam * (S 0 * S 1 * S 2 - 1) - mu) * S 0 * G 1 2)) * w2
  · simp [spdValues, Mat.write, Matrix.trace, Matrix.mul_apply, Fin.sum_univ_three, Matrix.vecMul, dotProduct]
    linear_combination (-G 0 0) * A20 - G 1 1 * A21 - G 2 2 * A22

/-! ## AnisotropicArap -/

/-- F a. -/
def stretch (n : Nat) (F : Mx) (a : Store ℝ) (i : Nat) : ℝ := ∑ j : Fin n, F i j * a j

theorem i5_sum (n : Nat) (F : Mx) (a : Store ℝ) : i5 n F a = ∑ i : Fin n, stretch n F a i * stretch n F a i := by
  have h : ∀ i, forN n (fun r j => r + F i j * a j) 0 = stretch n F a i := fun i => Mat.forN_sum n fun j => F i j * a j
  simp only [i5, h, Mat.dot]
  exact Mat.forN_sum n fun i => stretch n F a i * stretch n F a i

theorem stretch_line (n : Nat) (F G : Mx) (a : Store ℝ) (t : ℝ) (i : Nat) : stretch n (line F G t) a i = stretch n F a i + t * stretch n G a i := by
  simp only [stretch, Finset.mul_sum, ← Finset.sum_add_distrib, line]
  exact Finset.sum_congr rfl fun j _ => by ring

theorem i5_line (n : Nat) (F G : Mx) (a : Store ℝ) :
    HasDerivAt (fun t => i5 n (line F G t) a) (2 * ∑ i : Fin n, stretch n F a i * stretch n G a i) 0 := by
  have h := quad_deriv (f := fun t => i5 n (line F G t) a) (i5 n F a) (2 * ∑ i : Fin n, stretch n F a i * stretch n G a i) (i5 n G a) 0 fun t => by
    simp only [i5_sum, stretch_line, Finset.mul_sum, Finset.sum_mul, ← Finset.sum_add_distrib]
    exact Finset.sum_congr rfl fun i _ => by ring
  simpa using h

theorem arapPiola_at (mu s : ℝ) (n : Nat) (F : Mx) (a : Store ℝ) (i j : Nat) :
    arapPiola mu s n F a i j = 1 / 2 * mu * (1 - s / √(i5 n F a)) * stretch n F a i * a j := by
  simp only [arapPiola, Rot.mul]
  rw [Mat.forN_sum n fun k => 1 / 2 * mu * (1 - s / √(i5 n F a)) * F i k * (a k * a j), stretch, Finset.mul_sum, Finset.sum_mul]
  exact Finset.sum_congr rfl fun k _ => by ring

end Verif.Elastic
