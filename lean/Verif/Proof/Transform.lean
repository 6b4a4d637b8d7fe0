import Verif.Spec.Transform
import Verif.Props.Givens
import Mathlib.Algebra.BigOperators.Fin
import Mathlib.Tactic.Linarith

/-! Helper lemmas for affine maps as matrices. -/
namespace Verif.Transform

variable {d : ℕ}

theorem one_cc (i j : Fin d) : (1 : Mat d) i.castSucc j.castSucc = (1 : Matrix (Fin d) (Fin d) ℝ) i j := by
  simp only [Matrix.one_apply, Fin.castSucc_inj]

theorem one_cl (i : Fin d) : (1 : Mat d) i.castSucc (Fin.last d) = 0 := Matrix.one_apply_ne (Fin.castSucc_lt_last i).ne

theorem one_lc (i : Fin d) : (1 : Mat d) (Fin.last d) i.castSucc = 0 := Matrix.one_apply_ne (Fin.castSucc_lt_last i).ne'

theorem tr_cc (v : Fin d → ℝ) (i j : Fin d) : setToTranslation v i.castSucc j.castSucc = (1 : Matrix (Fin d) (Fin d) ℝ) i j := by
  rw [setToTranslation, if_neg (Fin.castSucc_lt_last i).ne, one_cc]

theorem tr_cl (v : Fin d → ℝ) (i : Fin d) : setToTranslation v i.castSucc (Fin.last d) = 0 := by
  rw [setToTranslation, if_neg (Fin.castSucc_lt_last i).ne, one_cl]

theorem tr_lc (v : Fin d → ℝ) (j : Fin d) : setToTranslation v (Fin.last d) j.castSucc = v j := by
  rw [setToTranslation, if_pos rfl, Fin.lastCases_castSucc]

theorem tr_ll (v : Fin d → ℝ) : setToTranslation v (Fin.last d) (Fin.last d) = 1 := by
  rw [setToTranslation, if_pos rfl, Fin.lastCases_last, Matrix.one_apply_eq]

theorem em_cc (a : Matrix (Fin d) (Fin d) ℝ) (i j : Fin d) : embed a i.castSucc j.castSucc = a i j := by simp [embed]
theorem em_cl (a : Matrix (Fin d) (Fin d) ℝ) (i : Fin d) : embed a i.castSucc (Fin.last d) = 0 := by simp [embed]
theorem em_lc (a : Matrix (Fin d) (Fin d) ℝ) (j : Fin d) : embed a (Fin.last d) j.castSucc = 0 := by simp [embed]
theorem em_ll (a : Matrix (Fin d) (Fin d) ℝ) : embed a (Fin.last d) (Fin.last d) = 1 := by simp [embed]

theorem sc_embed (v : Fin d → ℝ) : setToScale v = embed (Matrix.diagonal v) := by
  funext i j
  refine Fin.lastCases ?_ (fun i => ?_) i <;> refine Fin.lastCases ?_ (fun j => ?_) j
  · rw [em_ll, setToScale, if_pos rfl, Fin.lastCases_last, Matrix.one_apply_eq]
  · rw [em_lc, setToScale, if_neg (Fin.castSucc_lt_last j).ne', one_lc]
  · rw [em_cl, setToScale, if_neg (Fin.castSucc_lt_last i).ne, one_cl]
  · rw [em_cc, setToScale]
    by_cases h : i = j
    · subst h; rw [if_pos rfl, Fin.lastCases_castSucc, Matrix.diagonal_apply_eq]
    · rw [if_neg (fun h' => h (Fin.castSucc_injective d h')), one_cc, Matrix.one_apply_ne h, Matrix.diagonal_apply_ne _ h]

/-- Matrices agree if their four parts do. -/
theorem ext4 {a b : Mat d} (h1 : ∀ i j : Fin d, a i.castSucc j.castSucc = b i.castSucc j.castSucc) (h2 : ∀ i : Fin d, a i.castSucc (Fin.last d) = b i.castSucc (Fin.last d))
    (h3 : ∀ j : Fin d, a (Fin.last d) j.castSucc = b (Fin.last d) j.castSucc) (h4 : a (Fin.last d) (Fin.last d) = b (Fin.last d) (Fin.last d)) : a = b := by
  funext i j
  refine Fin.lastCases ?_ (fun i => ?_) i <;> refine Fin.lastCases ?_ (fun j => ?_) j
  · exact h4
  · exact h3 j
  · exact h2 i
  · exact h1 i j

theorem mul_at (a b : Mat d) (i j : Fin (d + 1)) : (a * b) i j = ∑ k : Fin d, a i k.castSucc * b k.castSucc j + a i (Fin.last d) * b (Fin.last d) j := by
  rw [Matrix.mul_apply, Fin.sum_univ_castSucc]

theorem embed_mul (a b : Matrix (Fin d) (Fin d) ℝ) : embed a * embed b = embed (a * b) := by
  refine ext4 (fun i j => ?_) (fun i => ?_) (fun j => ?_) ?_
  · rw [mul_at, em_cl, em_cc, Matrix.mul_apply]; simp [em_cc]
  · rw [mul_at]; simp [em_cc, em_cl, em_ll]
  · rw [mul_at]; simp [em_cc, em_lc]
  · rw [mul_at]; simp [em_lc, em_ll]

theorem to_cc (H : Mat d) (i j : Fin d) : translationOf H i.castSucc j.castSucc = (1 : Matrix (Fin d) (Fin d) ℝ) i j := by
  rw [translationOf, Fin.lastCases_castSucc, if_neg (Fin.castSucc_lt_last j).ne, one_cc]

theorem to_cl (H : Mat d) (i : Fin d) : translationOf H i.castSucc (Fin.last d) = H i.castSucc (Fin.last d) := by
  rw [translationOf, Fin.lastCases_castSucc, if_pos rfl]

theorem to_lc (H : Mat d) (j : Fin d) : translationOf H (Fin.last d) j.castSucc = 0 := by
  rw [translationOf, Fin.lastCases_last, one_lc]

theorem to_ll (H : Mat d) : translationOf H (Fin.last d) (Fin.last d) = 1 := by
  rw [translationOf, Fin.lastCases_last, Matrix.one_apply_eq]

/-- Translation times linear part: everything except the last row. -/
theorem translation_mul (H : Mat d) : (translationOf H * embed (block H) = H) ↔ AffineColumn H := by
  have cc : ∀ i j : Fin d, (translationOf H * embed (block H)) i.castSucc j.castSucc = H i.castSucc j.castSucc := by
    intro i j
    rw [mul_at, em_lc]
    simp only [to_cc, em_cc, Matrix.one_apply]
    simp [block]
  have cl : ∀ i : Fin d, (translationOf H * embed (block H)) i.castSucc (Fin.last d) = H i.castSucc (Fin.last d) := by
    intro i
    rw [mul_at, em_ll, to_cl]
    simp [em_cl]
  have lc : ∀ j : Fin d, (translationOf H * embed (block H)) (Fin.last d) j.castSucc = 0 := by
    intro j
    rw [mul_at, em_lc]
    simp [to_lc]
  have ll : (translationOf H * embed (block H)) (Fin.last d) (Fin.last d) = 1 := by
    rw [mul_at, em_ll, to_ll]
    simp [to_lc]
  constructor
  · intro h
    rw [h] at lc ll
    exact ⟨lc, ll⟩
  · intro h
    exact ext4 cc cl (fun j => by rw [lc, h.1 j]) (by rw [ll, h.2])

end Verif.Transform
