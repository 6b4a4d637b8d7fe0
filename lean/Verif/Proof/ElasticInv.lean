import Verif.Proof.ElasticCorotated

/-! Helper lemmas for C78: invariants and their derivatives. -/
namespace Verif.Elastic

open Matrix
open Verif.Mat (Store upd forN forN_inv)
open Verif.Rot (Mx mx IsRot frobSq)

theorem i2_frob (n : Nat) (F : Mx) : i2 n F = frobSq (mx n F) := by
  have h : ∀ i, forN n (fun r k => r + F k i * F k i) 0 = ∑ k : Fin n, F k i * F k i := fun i => Mat.forN_sum n fun k => F k i * F k i
  simp only [i2, h]
  rw [Mat.forN_sum n fun i => ∑ k : Fin n, F k i * F k i, Finset.sum_comm]
  simp only [frobSq, mx, pow_two]

theorem i3_det {n : Nat} (hn : n ≤ 3) (F : Mx) : i3 n F = (mx n F).det := by
  interval_cases n
  · simp [i3, Mat.determinant]
  · simp [i3, Mat.determinant, Mat.at2, mx]
  · rw [Matrix.det_fin_two]; simp [i3, Mat.determinant, Mat.at2, mx]; ring
  · rw [Matrix.det_fin_three]; simp [i3, Mat.determinant, Mat.at2, mx]; ring

theorem vectorize_at (n : Nat) (A : Mx) {i j : Nat} (hi : i < n) : vectorize n A (j * n + i) = A i j := by
  have h := (pos3 n i j hi).2
  have h' : (j * n + i) % n = i := by rw [Nat.add_comm, Nat.add_mul_mod_self_right, Nat.mod_eq_of_lt hi]
  rw [vectorize, h, h']

theorem i2Grad_at (n : Nat) (F : Mx) {i j : Nat} (hi : i < n) : i2Grad n F (j * n + i) = 2 * F i j := by
  rw [i2Grad, vectorize_at n _ hi]; ring

theorem i2Hess_contract (n : Nat) (G : Mx) {i j : Nat} (hi : i < n) (hj : j < n) :
    ∑ r : Fin n, ∑ s : Fin n, i2Hess n (j * n + i) (s * n + r) * G r s = 2 * G i j := by
  rw [Finset.sum_eq_single ⟨i, hi⟩, Finset.sum_eq_single ⟨j, hj⟩]
  · simp [i2Hess]; norm_num
  · intro s _ hs
    have : ¬ j * n + i = s * n + i := fun h => hs (Fin.ext (by
      have h1 := (pos3 n i j hi).2; have h2 := (pos3 n i s hi).2; rw [h, h2] at h1; exact h1))
    simp only [i2Hess]; rw [if_neg this]; ring
  · simp
  · intro r _ hr
    refine Finset.sum_eq_zero fun s _ => ?_
    have : ¬ j * n + i = s * n + r := fun h => hr (Fin.ext (by
      have h1 := (pos3 n i j hi).1; have h2 := (pos3 n r s r.2).1; rw [h, h2] at h1; exact h1))
    simp only [i2Hess]; rw [if_neg this]; ring
  · simp

/-- The gradient as a matrix. -/
def i3Mat (n : Nat) (F : Mx) : Mx := fun i j => i3Grad n F (j * n + i)

theorem i3Mat_adj {n : Nat} (hn : n = 2 ∨ n = 3) (F : Mx) : mx n (i3Mat n F) = ((mx n F).adjugate)ᵀ := by
  rcases hn with rfl | rfl
  · rw [Matrix.adjugate_fin_two]
    ext i j; fin_cases i <;> fin_cases j <;> simp [i3Mat, i3Grad, Mat.write, mx]
  · rw [Matrix.adjugate_fin_three]
    ext i j; fin_cases i <;> fin_cases j <;> simp [i3Mat, i3Grad, Mat.write, mx, Mat.cross3, upd] <;> ring

/-- The Hessian applied to a matrix. -/
theorem i3Hess_line3 (F G : Mx) (t : ℝ) (i j : Fin 3) :
    i3Mat 3 (line F G t) i j = i3Mat 3 F i j + (∑ r : Fin 3, ∑ s : Fin 3, i3Hess 3 F (j * 3 + i) (s * 3 + r) * G r s) * t + i3Mat 3 G i j * t ^ 2 := by
  simp only [Fin.sum_univ_three]
  fin_cases i <;> fin_cases j <;>
    simp [i3Mat, i3Grad, Mat.write, Mat.cross3, upd, line, i3Hess, blocks, forN, List.range_succ, Rot.set, Mat.crossMatrix, Mat.at2] <;> ring

theorem i3Hess_line2 (F G : Mx) (t : ℝ) (i j : Fin 2) :
    i3Mat 2 (line F G t) i j = i3Mat 2 F i j + (∑ r : Fin 2, ∑ s : Fin 2, i3Hess 2 F (j * 2 + i) (s * 2 + r) * G r s) * t := by
  simp only [Fin.sum_univ_two]
  fin_cases i <;> fin_cases j <;> simp [i3Mat, i3Grad, Mat.write, line, i3Hess] <;> ring

theorem inner_adj {n : Nat} (hn : n = 2 ∨ n = 3) (F G : Mx) : inner n (i3Mat n F) G = ((mx n F).adjugate * mx n G).trace := by
  rw [inner_trace, i3Mat_adj hn, Matrix.transpose_transpose]

theorem i3_line {n : Nat} (hn : n = 2 ∨ n = 3) (F G : Mx) : HasDerivAt (fun t => i3 n (line F G t)) (inner n (i3Mat n F) G) 0 := by
  rw [inner_adj hn]
  have e : (fun t => i3 n (line F G t)) = fun t => (mx n F + t • mx n G).det := by
    funext t; rw [i3_det (by omega), line_mx]
  rw [e]
  rcases hn with rfl | rfl
  · exact det_line2 _ _
  · exact det_line3 _ _

theorem i2_line (n : Nat) (F G : Mx) : HasDerivAt (fun t => i2 n (line F G t)) (2 * inner n F G) 0 := by
  have e : (fun t => i2 n (line F G t)) = fun t => frobSq (mx n F + t • mx n G) := by
    funext t; rw [i2_frob, line_mx]
  rw [e]; exact frob_line F G

theorem i3Mat_line {n : Nat} (hn : n = 2 ∨ n = 3) (F G : Mx) {i j : Nat} (hi : i < n) (hj : j < n) :
    HasDerivAt (fun t => i3Mat n (line F G t) i j) (∑ r : Fin n, ∑ s : Fin n, i3Hess n F (j * n + i) (s * n + r) * G r s) 0 := by
  rcases hn with rfl | rfl
  · refine lin_deriv (i3Mat 2 F i j) _ 0 fun t => ?_
    rw [i3Hess_line2 F G t ⟨i, hi⟩ ⟨j, hj⟩]
  · refine cubic_deriv (i3Mat 3 F i j) _ (i3Mat 3 G i j) 0 fun t => ?_
    rw [i3Hess_line3 F G t ⟨i, hi⟩ ⟨j, hj⟩]; ring

/-- The stress of a model whose energy is linear in the second invariant and does not depend on the first. -/
theorem inv_piola {m : Inv} {n : Nat} {i1 : ℝ} {F : Mx} (g1 : Store ℝ) (h0 : m.dpsi 0 (invariants n i1 F) = 0) {i j : Nat} (hi : i < n) :
    m.piola n i1 g1 F i j = m.dpsi 1 (invariants n i1 F) * (2 * F i j) + m.dpsi 2 (invariants n i1 F) * i3Mat n F i j := by
  rw [Inv.piola]
  simp only [h0, i2Grad_at n F hi, i3Mat]
  ring

theorem inv_gradient {m : Inv} {n : Nat} (hn : n = 2 ∨ n = 3) {c : ℝ} {φ : ℝ → ℝ} (hpsi : ∀ I, m.psi I = c * I 1 + φ (I 2)) (h0 : ∀ I, m.dpsi 0 I = 0)
    (h1 : ∀ I, m.dpsi 1 I = c) {i1 : Mx → ℝ} {F : Mx} (g1 : Store ℝ) (hφ : HasDerivAt φ (m.dpsi 2 (invariants n (i1 F) F)) (i3 n F)) :
    IsGradient n (fun F => m.energy n (i1 F) F) F (m.piola n (i1 F) g1 F) := by
  intro G
  have hz : line F G 0 = F := by funext a b; simp [line]
  rw [← hz] at hφ
  have h := ((i2_line n F G).const_mul c).add (HasDerivAt.comp (h₂ := φ) (h := fun t => i3 n (line F G t)) 0 hφ (i3_line hn F G))
  rw [hz] at h
  have e : (fun t => m.energy n (i1 (line F G t)) (line F G t)) = fun t => c * i2 n (line F G t) + φ (i3 n (line F G t)) := by
    funext t; rw [Inv.energy, hpsi]; rfl
  rw [e]
  refine h.congr_deriv ?_
  have hv : inner n (m.piola n (i1 F) g1 F) G = c * (2 * inner n F G) + m.dpsi 2 (invariants n (i1 F) F) * inner n (i3Mat n F) G := by
    simp only [inner, Finset.mul_sum, ← Finset.sum_add_distrib]
    refine Finset.sum_congr rfl fun i _ => Finset.sum_congr rfl fun j _ => ?_
    rw [inv_piola g1 (h0 _) i.2, h1]; ring
  rw [hv]

theorem inv_tangent {m : Inv} {n : Nat} (hn : n = 2 ∨ n = 3) {c : ℝ} {φ' : ℝ → ℝ} (h0 : ∀ I, m.dpsi 0 I = 0) (h1 : ∀ I, m.dpsi 1 I = c)
    (h2 : ∀ I, m.dpsi 2 I = φ' (I 2)) (d0 : ∀ I, m.d2psi 0 I = 0) (d1 : ∀ I, m.d2psi 1 I = 0) {i1 : Mx → ℝ} {F : Mx} (g1 : Mx → Store ℝ) (k1 : Mx)
    (hφ : HasDerivAt φ' (m.d2psi 2 (invariants n (i1 F) F)) (i3 n F)) :
    IsDerivative n (fun F => m.piola n (i1 F) (g1 F) F) F (m.tangent n (i1 F) (g1 F) k1 F) := by
  intro G i hi j hj
  have e : (fun t => m.piola n (i1 (line F G t)) (g1 (line F G t)) (line F G t) i j) = fun t =>
      c * (2 * (F i j + t * G i j)) + φ' (i3 n (line F G t)) * i3Mat n (line F G t) i j := by
    funext t; rw [inv_piola _ (h0 _) hi, h1, h2]; rfl
  simp only [e]
  have hz : line F G 0 = F := by funext a b; simp [line]
  rw [← hz] at hφ
  have hc := HasDerivAt.comp (h₂ := φ') (h := fun t => i3 n (line F G t)) 0 hφ (i3_line hn F G)
  rw [hz] at hc
  have hl : HasDerivAt (fun t : ℝ => c * (2 * (F i j + t * G i j))) (c * (2 * G i j)) 0 :=
    lin_deriv (c * (2 * F i j)) (c * (2 * G i j)) 0 fun y => by ring
  refine (hl.add (hc.mul (i3Mat_line hn F G hi hj))).congr_deriv ?_
  simp only [Function.comp, hz]
  have h3 : m.dpsi 2 (invariants n (i1 F) F) = φ' (i3 n F) := by rw [h2]; rfl
  have hH := i2Hess_contract n G hi hj
  have expand : ∀ r s : Fin n, m.tangent n (i1 F) (g1 F) k1 F (j * n + i) (s * n + r) * G r s =
      c * (i2Hess n (j * n + i) (s * n + r) * G r s) + (m.d2psi 2 (invariants n (i1 F) F) * i3Mat n F i j * (i3Mat n F r s * G r s)
        + φ' (i3 n F) * (i3Hess n F (j * n + i) (s * n + r) * G r s)) := fun r s => by
    simp only [Inv.tangent, h0, h1, d0, d1, h3, i3Mat]; ring
  simp only [expand, Finset.sum_add_distrib, ← Finset.mul_sum, hH]
  simp only [inner]
  ring

end Verif.Elastic
