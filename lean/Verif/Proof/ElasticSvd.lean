import Verif.Spec.Elastic
import Verif.Props.Givens
import Mathlib.Topology.Instances.Matrix
import Mathlib.Topology.Order.Compact

/-! For C78: singular value decompositions exist, so that the theorems about models with a decomposition as parameter are about something. -/
namespace Verif.Elastic

open Matrix
open Verif.Mat (Store upd)
open Verif.Rot (Mx mx IsRot)

abbrev M3 := Matrix (Fin 3) (Fin 3) ℝ

theorem rotSet_compact : IsCompact {U : M3 | IsRot U} := by
  have hbox : IsCompact (Set.pi Set.univ fun _ : Fin 3 => Set.pi Set.univ fun _ : Fin 3 => Set.Icc (-1 : ℝ) 1) :=
    isCompact_univ_pi fun _ => isCompact_univ_pi fun _ => isCompact_Icc
  refine hbox.of_isClosed_subset ?_ ?_
  · refine IsClosed.inter ?_ ?_
    · exact isClosed_eq (continuous_id.matrix_mul continuous_id.matrix_transpose) continuous_const
    · exact isClosed_eq continuous_id.matrix_det continuous_const
  · intro (U : M3) hU i _ j _
    have h := congrFun (congrFun hU.1 i) i
    rw [Matrix.mul_apply, Matrix.one_apply_eq] at h
    simp only [Matrix.transpose_apply] at h
    have h1 : U i j * U i j ≤ 1 := by
      rw [← h]
      exact Finset.single_le_sum (f := fun k => U i k * U i k) (fun k _ => mul_self_nonneg _) (Finset.mem_univ j)
    exact ⟨by nlinarith, by nlinarith⟩

/-- The weighted sum of the diagonal. -/
def wsum (M : M3) : ℝ := 3 * M 0 0 + 2 * M 1 1 + M 2 2

def r01 (c s : ℝ) : M3 := !![c, -s, 0; s, c, 0; 0, 0, 1]
def r02 (c s : ℝ) : M3 := !![c, 0, -s; 0, 1, 0; s, 0, c]
def r12 (c s : ℝ) : M3 := !![1, 0, 0; 0, c, -s; 0, s, c]

theorem r01_rot {c s : ℝ} (h : c * c + s * s = 1) : IsRot (r01 c s) := by
  refine ⟨?_, by simp [r01, Matrix.det_fin_three]; linarith⟩
  ext i j; fin_cases i <;> fin_cases j <;> simp [r01, Matrix.mul_apply, Fin.sum_univ_three] <;> linarith

theorem r02_rot {c s : ℝ} (h : c * c + s * s = 1) : IsRot (r02 c s) := by
  refine ⟨?_, by simp [r02, Matrix.det_fin_three]; linarith⟩
  ext i j; fin_cases i <;> fin_cases j <;> simp [r02, Matrix.mul_apply, Fin.sum_univ_three] <;> linarith

theorem r12_rot {c s : ℝ} (h : c * c + s * s = 1) : IsRot (r12 c s) := by
  refine ⟨?_, by simp [r12, Matrix.det_fin_three]; linarith⟩
  ext i j; fin_cases i <;> fin_cases j <;> simp [r12, Matrix.mul_apply, Fin.sum_univ_three] <;> linarith

theorem turn_zero {A B : ℝ} (h : ∀ c s : ℝ, c * c + s * s = 1 → A * c + B * s ≤ A) : B = 0 := by
  have key : ∀ t : ℝ, B * t ≤ A * t ^ 2 := fun t => by
    have hp : 0 < 1 + t ^ 2 := by positivity
    have := h ((1 - t ^ 2) / (1 + t ^ 2)) (2 * t / (1 + t ^ 2)) (by field_simp; ring)
    have e : A * ((1 - t ^ 2) / (1 + t ^ 2)) + B * (2 * t / (1 + t ^ 2)) = (A * (1 - t ^ 2) + B * (2 * t)) / (1 + t ^ 2) := by ring
    rw [e, div_le_iff₀ hp] at this
    linarith
  by_contra hB
  have hA : 0 < |A| + 1 := by positivity
  have := key (B / (|A| + 1))
  have e1 : B * (B / (|A| + 1)) = B ^ 2 / (|A| + 1) := by ring
  have e2 : A * (B / (|A| + 1)) ^ 2 = A / (|A| + 1) * (B ^ 2 / (|A| + 1)) := by field_simp
  rw [e1, e2] at this
  have h1 : A / (|A| + 1) < 1 := by rw [div_lt_one hA]; linarith [le_abs_self A]
  have h2 : 0 < B ^ 2 / (|A| + 1) := by positivity
  nlinarith

/-- A decomposition exists for every matrix, with the order that `qr_svd` gives. -/
theorem exists_svd3 (F : Mx) : ∃ d, IsSvd 3 F d ∧ d.S 1 ≤ d.S 0 ∧ |d.S 2| ≤ d.S 1 := by
  obtain ⟨⟨U, V⟩, ⟨hU, hV⟩, hmax⟩ := (rotSet_compact.prod rotSet_compact).exists_isMaxOn ⟨(1, 1), ⟨by simp, by simp⟩, ⟨by simp, by simp⟩⟩
    (f := fun p : M3 × M3 => wsum (p.1ᵀ * mx 3 F * p.2)) (by
      refine Continuous.continuousOn ?_
      have hc : Continuous fun p : M3 × M3 => p.1ᵀ * mx 3 F * p.2 :=
        (continuous_fst.matrix_transpose.matrix_mul continuous_const).matrix_mul continuous_snd
      exact ((continuous_const.mul (hc.matrix_elem 0 0)).add (continuous_const.mul (hc.matrix_elem 1 1))).add (hc.matrix_elem 2 2))
  obtain ⟨M, hM⟩ : ∃ M, M = Uᵀ * mx 3 F * V := ⟨_, rfl⟩
  have hm : ∀ P Q : M3, IsRot P → IsRot Q → wsum (Pᵀ * M * Q) ≤ wsum M := fun P Q hP hQ => by
    have := hmax (show (U * P, V * Q) ∈ _ from ⟨hU.mul hP, hV.mul hQ⟩)
    simp only [Set.mem_ofPred_eq, Matrix.transpose_mul] at this
    rw [hM]
    calc _ = _ := by simp only [Matrix.mul_assoc]
      _ ≤ _ := this
  have one : IsRot (1 : M3) := ⟨by simp, by simp⟩
  have e01 : 3 * M 1 0 - 2 * M 0 1 = 0 := turn_zero (A := 3 * M 0 0 + 2 * M 1 1) fun c s h => by
    have := hm _ _ (r01_rot h) one
    simp [wsum, r01, Matrix.mul_apply, Fin.sum_univ_three] at this
    linarith
  have e10 : 3 * M 0 1 - 2 * M 1 0 = 0 := turn_zero (A := 3 * M 0 0 + 2 * M 1 1) fun c s h => by
    have := hm _ _ one (r01_rot h)
    simp [wsum, r01, Matrix.mul_apply, Fin.sum_univ_three] at this
    linarith
  have e02 : 3 * M 2 0 - M 0 2 = 0 := turn_zero (A := 3 * M 0 0 + M 2 2) fun c s h => by
    have := hm _ _ (r02_rot h) one
    simp [wsum, r02, Matrix.mul_apply, Fin.sum_univ_three] at this
    linarith
  have e20 : 3 * M 0 2 - M 2 0 = 0 := turn_zero (A := 3 * M 0 0 + M 2 2) fun c s h => by
    have := hm _ _ one (r02_rot h)
    simp [wsum, r02, Matrix.mul_apply, Fin.sum_univ_three] at this
    linarith
  have e12 : 2 * M 2 1 - M 1 2 = 0 := turn_zero (A := 2 * M 1 1 + M 2 2) fun c s h => by
    have := hm _ _ (r12_rot h) one
    simp [wsum, r12, Matrix.mul_apply, Fin.sum_univ_three] at this
    linarith
  have e21 : 2 * M 1 2 - M 2 1 = 0 := turn_zero (A := 2 * M 1 1 + M 2 2) fun c s h => by
    have := hm _ _ one (r12_rot h)
    simp [wsum, r12, Matrix.mul_apply, Fin.sum_univ_three] at this
    linarith
  have o1 : M 1 1 ≤ M 0 0 := by
    have := hm _ _ (r01_rot (c := 0) (s := 1) (by norm_num)) (r01_rot (c := 0) (s := 1) (by norm_num))
    simp [wsum, r01, Matrix.mul_apply, Fin.sum_univ_three] at this
    linarith
  have o2 : M 2 2 ≤ M 1 1 := by
    have := hm _ _ (r12_rot (c := 0) (s := 1) (by norm_num)) (r12_rot (c := 0) (s := 1) (by norm_num))
    simp [wsum, r12, Matrix.mul_apply, Fin.sum_univ_three] at this
    linarith
  have o3 : -M 2 2 ≤ M 1 1 := by
    have := hm _ _ (r12_rot (c := 0) (s := 1) (by norm_num)) (r12_rot (c := 0) (s := -1) (by norm_num))
    simp [wsum, r12, Matrix.mul_apply, Fin.sum_univ_three] at this
    linarith
  have hMd : M = diagonal fun i => M i i := by
    ext i j; fin_cases i <;> fin_cases j <;> simp <;> linarith
  obtain ⟨ext, hext⟩ : ∃ ext : M3 → Mx, ∀ X, mx 3 (ext X) = X :=
    ⟨fun X i j => if h : i < 3 ∧ j < 3 then X ⟨i, h.1⟩ ⟨j, h.2⟩ else 0, fun X => by funext i j; simp [mx]⟩
  refine ⟨⟨ext U, fun k => ext M k k, ext V⟩, ⟨by rw [hext]; exact hU, by rw [hext]; exact hV, ?_⟩, ?_, ?_⟩
  · rw [hext, hext]
    have hd : (diagonal fun i : Fin 3 => ext M i i) = M := by
      conv_rhs => rw [hMd]
      congr 1; funext i; exact congrFun (congrFun (hext M) i) i
    rw [show (diagonal fun i : Fin 3 => (⟨ext U, fun k => ext M k k, ext V⟩ : Svd).S i) = M from hd, hM]
    calc mx 3 F = (U * Uᵀ) * mx 3 F * (V * Vᵀ) := by rw [hU.1, hV.1, Matrix.one_mul, Matrix.mul_one]
      _ = _ := by simp only [Matrix.mul_assoc]
  · have h0 := congrFun (congrFun (hext M) 0) 0; have h1 := congrFun (congrFun (hext M) 1) 1
    simp only [mx] at h0 h1
    exact (le_of_eq_of_le h1 o1).trans (le_of_eq h0.symm)
  · have h2 := congrFun (congrFun (hext M) 2) 2; have h1 := congrFun (congrFun (hext M) 1) 1
    simp only [mx] at h2 h1
    show |ext M 2 2| ≤ ext M 1 1
    have h2' : ext M 2 2 = M 2 2 := h2
    have h1' : ext M 1 1 = M 1 1 := h1
    rw [h2', h1', abs_le]
    exact ⟨by linarith, o2⟩

/-- What `qr_svd` returns in two dimensions (C76). -/
noncomputable def codeSvd2 (F : Mx) : Svd :=
  let r := Rot.qrSvd2 F (Rot.Givens.of 0 1) (Rot.Givens.of 0 1)
  ⟨r.U.fill, fun k => if k = 0 then r.S0 else r.S1, r.V.fill⟩

theorem codeSvd2_svd (F : Mx) : IsSvd 2 F (codeSvd2 F) ∧ |(codeSvd2 F).S 1| ≤ (codeSvd2 F).S 0 := by
  obtain ⟨h1, h2, h3, h4⟩ := Rot.qrSvd2_spec F
  refine ⟨⟨h2, h3, ?_⟩, by simpa [codeSvd2] using h4⟩
  rw [h1]
  congr 2
  congr 1
  funext i; fin_cases i <;> simp [codeSvd2]

end Verif.Elastic
