import Verif.Proof.Transform

/-! Claim C86: affine maps as matrices and their decomposition. -/
namespace Verif.Transform

variable {d : ℕ}

/-- Products of affine matrices are affine and mean composition, from left to right. -/
theorem compose (a b : Mat d) (ha : AffineRow a) : (AffineRow b → AffineRow (a * b)) ∧ ∀ p, onRow (a * b) p = onRow b (onRow a p) := by
  refine ⟨fun hb => ⟨fun i => ?_, ?_⟩, fun p => ?_⟩
  · rw [mul_at, ha.1 i]; simp [hb.1]
  · rw [mul_at, ha.2, hb.2]; simp [hb.1]
  · funext j
    simp only [onRow, mul_at, ha.1, ha.2]
    simp only [add_mul, Finset.sum_mul, Finset.sum_add_distrib, mul_add, Finset.mul_sum, zero_mul, mul_zero, one_mul, Finset.sum_const_zero, add_zero]
    rw [Finset.sum_comm]
    simp only [mul_assoc]
    ring

/-- A translation moves by `v`; before the map it moves the argument, after it the result. -/
theorem translation (m : Mat d) (v p : Fin d → ℝ) :
    AffineRow (setToTranslation v) ∧ onRow (setToTranslation v) p = (fun i => p i + v i) ∧
    onRow (preTranslate m v) p = onRow m (fun i => p i + v i) ∧ (AffineRow m → onRow (postTranslate m v) p = fun i => onRow m p i + v i) := by
  have ha : AffineRow (setToTranslation v) := ⟨tr_cl v, tr_ll v⟩
  have hp : ∀ q, onRow (setToTranslation v) q = fun i => q i + v i := by
    intro q
    funext j
    simp only [onRow, tr_cc, tr_lc, Matrix.one_apply]
    simp
  refine ⟨ha, hp p, ?_, fun hm => ?_⟩
  · rw [preTranslate, (compose _ m ha).2, hp]
  · rw [postTranslate, (compose m _ hm).2, hp]

/-- A scale multiplies the components; the loops that scale in place are products with the matrix of the scale. -/
theorem scale (m : Mat d) (v p : Fin d → ℝ) :
    AffineRow (setToScale v) ∧ onRow (setToScale v) p = (fun i => p i * v i) ∧
    preScale m v = setToScale v * m ∧ postScale m v = m * setToScale v ∧
    onRow (preScale m v) p = onRow m (fun i => p i * v i) ∧ onRow (postScale m v) p = fun i => onRow m p i * v i := by
  have ha : AffineRow (setToScale v) := by rw [sc_embed]; exact ⟨em_cl _, em_ll _⟩
  have hp : ∀ q, onRow (setToScale v) q = fun i => q i * v i := by
    intro q
    funext j
    rw [sc_embed]
    simp only [onRow, em_cc, em_lc, Matrix.diagonal_apply]
    simp
  have hpre : preScale m v = setToScale v * m := by
    rw [sc_embed]
    funext i j
    refine Fin.lastCases ?_ (fun i => ?_) i
    · rw [preScale, Fin.lastCases_last, mul_at, em_ll]; simp [em_lc]
    · rw [preScale, Fin.lastCases_castSucc, mul_at, em_cl]
      simp only [em_cc, Matrix.diagonal_apply]
      simp [mul_comm]
  have hpost : postScale m v = m * setToScale v := by
    rw [sc_embed]
    funext i j
    refine Fin.lastCases ?_ (fun j => ?_) j
    · rw [postScale, Fin.lastCases_last, mul_at, em_ll]; simp [em_cl]
    · rw [postScale, Fin.lastCases_castSucc, mul_at, em_lc]
      simp only [em_cc, Matrix.diagonal_apply]
      simp
  refine ⟨ha, hp p, hpre, hpost, by rw [hpre, (compose _ m ha).2, hp], ?_⟩
  funext j
  simp only [onRow, postScale, Fin.lastCases_castSucc, add_mul, Finset.sum_mul, mul_assoc]

/-- A rotation acts on rows as the given matrix acts on columns; before the map it turns the argument, after it the result. -/
theorem rotation (m : Mat d) (r : Matrix (Fin d) (Fin d) ℝ) (p : Fin d → ℝ) :
    AffineRow (setToRotation r) ∧ onRow (setToRotation r) p = r.mulVec p ∧
    onRow (preRotate m r) p = onRow m (r.mulVec p) ∧ (AffineRow m → onRow (postRotate m r) p = r.mulVec (onRow m p)) := by
  have ha : AffineRow (setToRotation r) := ⟨em_cl _, em_ll _⟩
  have hp : ∀ q, onRow (setToRotation r) q = r.mulVec q := by
    intro q
    funext j
    change ∑ i, q i * embed r.transpose i.castSucc j.castSucc + embed r.transpose (Fin.last d) j.castSucc = ∑ i, r j i * q i
    rw [em_lc, add_zero]
    refine Finset.sum_congr rfl fun i _ => ?_
    rw [em_cc, mul_comm, Matrix.transpose_apply]
  refine ⟨ha, hp p, ?_, fun hm => ?_⟩
  · rw [preRotate, (compose _ m ha).2, hp]
  · rw [postRotate, (compose m _ hm).2, hp]

/-- The decomposition for columns multiplies back to the matrix exactly for affine ones; the first factor is a translation, the others are linear. -/
theorem decompose_column (polar : Matrix (Fin d) (Fin d) ℝ → Matrix (Fin d) (Fin d) ℝ × Matrix (Fin d) (Fin d) ℝ) (hp : ∀ L, (polar L).1 * (polar L).2 = L) (m : Mat d) :
    ((decompose polar m true).1 * (decompose polar m true).2.1 * (decompose polar m true).2.2 = m ↔ AffineColumn m) ∧
    (∀ p, onColumn (decompose polar m true).1 p = fun i => p i + onColumn m 0 i) ∧
    (∀ p, onColumn (decompose polar m true).2.1 p = (polar (block m)).1.mulVec p) ∧ (∀ p, onColumn (decompose polar m true).2.2 p = (polar (block m)).2.mulVec p) := by
  have lin : ∀ a : Matrix (Fin d) (Fin d) ℝ, ∀ p, onColumn (embed a) p = a.mulVec p := by
    intro a p
    funext i
    simp only [onColumn, em_cc, em_cl, Matrix.mulVec, dotProduct, add_zero]
  refine ⟨?_, fun p => ?_, fun p => lin _ p, fun p => lin _ p⟩
  · change translationOf m * embed (polar (block m)).1 * embed (polar (block m)).2 = m ↔ _
    rw [Matrix.mul_assoc, embed_mul, hp, translation_mul]
  · funext i
    change onColumn (translationOf m) p i = _
    simp only [onColumn, to_cc, to_cl, Matrix.one_apply]
    simp

/-- The decomposition for rows is in the opposite order. -/
theorem decompose_row (polar : Matrix (Fin d) (Fin d) ℝ → Matrix (Fin d) (Fin d) ℝ × Matrix (Fin d) (Fin d) ℝ) (hp : ∀ L, (polar L).1 * (polar L).2 = L) (m : Mat d) :
    (decompose polar m false).1 * (decompose polar m false).2.1 * (decompose polar m false).2.2 = m ↔ AffineRow m := by
  change (embed (polar (block m.transpose)).2).transpose * (embed (polar (block m.transpose)).1).transpose * (translationOf m.transpose).transpose = m ↔ _
  rw [← Matrix.transpose_mul, embed_mul, ← Matrix.transpose_mul, hp]
  have h := translation_mul m.transpose
  have h2 : AffineColumn m.transpose ↔ AffineRow m := Iff.rfl
  rw [← h2, ← h]
  exact ⟨fun e => by rw [← Matrix.transpose_transpose (translationOf _ * _), e], fun e => by rw [e, Matrix.transpose_transpose]⟩

/-- In two dimensions with the polar decomposition of C76 the factors are a translation, a rotation and a symmetric matrix, and no rotation is closer to the linear part. -/
theorem decompose_two (m : Mat 2) (h : AffineColumn m) :
    (decompose polarTwo m true).1 * (decompose polarTwo m true).2.1 * (decompose polarTwo m true).2.2 = m ∧
    Rot.IsRot (block (decompose polarTwo m true).2.1) ∧ (block (decompose polarTwo m true).2.2).IsSymm ∧
    ∀ Q : Matrix (Fin 2) (Fin 2) ℝ, Rot.IsRot Q → Rot.frobSq (block m - block (decompose polarTwo m true).2.1) ≤ Rot.frobSq (block m - Q) := by
  have spec : ∀ L : Matrix (Fin 2) (Fin 2) ℝ, L = (polarTwo L).1 * (polarTwo L).2 ∧ Rot.IsRot (polarTwo L).1 ∧ (polarTwo L).2.IsSymm ∧
      ∀ Q : Matrix (Fin 2) (Fin 2) ℝ, Rot.IsRot Q → Rot.frobSq (L - (polarTwo L).1) ≤ Rot.frobSq (L - Q) := by
    intro L
    have s := Rot.polarDecomposition2_spec fun i j => if h : i < 2 ∧ j < 2 then L ⟨i, h.1⟩ ⟨j, h.2⟩ else 0
    have e : Rot.mx 2 (fun i j => if h : i < 2 ∧ j < 2 then L ⟨i, h.1⟩ ⟨j, h.2⟩ else 0) = L := by
      funext i j
      simp only [Rot.mx]
      rw [dif_pos ⟨i.2, j.2⟩]
    simp only [e] at s
    exact s
  have hb : ∀ a : Matrix (Fin 2) (Fin 2) ℝ, block (embed a) = a := fun a => by funext i j; exact em_cc a i j
  obtain ⟨s1, s2, s3, s4⟩ := spec (block m)
  refine ⟨(decompose_column polarTwo (fun L => (spec L).1.symm) m).1.2 h, ?_, ?_, ?_⟩
  · change Rot.IsRot (block (embed (polarTwo (block m)).1)); rw [hb]; exact s2
  · change (block (embed (polarTwo (block m)).2)).IsSymm; rw [hb]; exact s3
  · change ∀ Q : Matrix (Fin 2) (Fin 2) ℝ, Rot.IsRot Q → Rot.frobSq (block m - block (embed (polarTwo (block m)).1)) ≤ _; rw [hb]; exact s4

/-- The second function writes rotation, symmetric part and translation that act on columns as the matrix does, for both conventions (so `setToRotation` fits the rotation). -/
theorem decompose_into (polar : Matrix (Fin d) (Fin d) ℝ → Matrix (Fin d) (Fin d) ℝ × Matrix (Fin d) (Fin d) ℝ) (hp : ∀ L, (polar L).1 * (polar L).2 = L) (m : Mat d) (p : Fin d → ℝ) :
    (onColumn m p = fun i => (decomposeInto polar m true).2.1.mulVec ((decomposeInto polar m true).1.mulVec p) i + (decomposeInto polar m true).2.2 i) ∧
    (onRow m p = fun i => (decomposeInto polar m false).2.1.mulVec ((decomposeInto polar m false).1.mulVec p) i + (decomposeInto polar m false).2.2 i) := by
  constructor
  · funext i
    change onColumn m p i = (polar (block m)).1.mulVec ((polar (block m)).2.mulVec p) i + m i.castSucc (Fin.last d)
    rw [Matrix.mulVec_mulVec, hp]
    rfl
  · funext i
    change onRow m p i = (polar (block m.transpose)).1.mulVec ((polar (block m.transpose)).2.mulVec p) i + m (Fin.last d) i.castSucc
    rw [Matrix.mulVec_mulVec, hp]
    simp only [onRow, Matrix.mulVec, dotProduct, block, Matrix.transpose_apply]
    congr 1
    exact Finset.sum_congr rfl fun k _ => mul_comm _ _

/-! ### The hypotheses are met -/

example : AffineRow (setToTranslation ![1, 2, (3 : ℝ)]) := (translation 1 ![1, 2, 3] 0).1
example : ∃ polar : Matrix (Fin 3) (Fin 3) ℝ → Matrix (Fin 3) (Fin 3) ℝ × Matrix (Fin 3) (Fin 3) ℝ, ∀ L, (polar L).1 * (polar L).2 = L := ⟨fun L => (1, L), fun L => by simp⟩
example : AffineColumn (setToTranslation ![1, 2, (3 : ℝ)]).transpose := (translation 1 ![1, 2, 3] 0).1

end Verif.Transform
