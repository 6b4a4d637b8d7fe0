import Verif.Model.Givens
import Verif.Proof.SmallMat
import Mathlib.Tactic.FieldSimp
import Mathlib.Tactic.NormNum
import Mathlib.Tactic.Positivity
import Mathlib.Tactic.LinearCombination

/-! Helper lemmas for C76: rotations as matrices. -/
namespace Verif.Rot

open Matrix
open Verif.Mat (forN forN_succ forN_zero)

/-- The n by n matrix that `A` holds. -/
def mx (n : Nat) (A : Mx) : Matrix (Fin n) (Fin n) ℝ := fun i j => A i j

/-- Rotation matrices. -/
def IsRot {n : Nat} (M : Matrix (Fin n) (Fin n) ℝ) : Prop := M * Mᵀ = 1 ∧ M.det = 1

theorem IsRot.tmul {n : Nat} {M : Matrix (Fin n) (Fin n) ℝ} (h : IsRot M) : Mᵀ * M = 1 := mul_eq_one_comm.1 h.1

theorem IsRot.mul {n : Nat} {M N : Matrix (Fin n) (Fin n) ℝ} (h : IsRot M) (h' : IsRot N) : IsRot (M * N) := by
  refine ⟨?_, by rw [Matrix.det_mul, h.2, h'.2, one_mul]⟩
  rw [Matrix.transpose_mul, Matrix.mul_assoc, ← Matrix.mul_assoc N, h'.1, Matrix.one_mul, h.1]

theorem IsRot.transpose {n : Nat} {M : Matrix (Fin n) (Fin n) ℝ} (h : IsRot M) : IsRot Mᵀ :=
  ⟨by rw [Matrix.transpose_transpose]; exact h.tmul, by rw [Matrix.det_transpose, h.2]⟩

theorem IsRot.one {n : Nat} : IsRot (1 : Matrix (Fin n) (Fin n) ℝ) := ⟨by simp, Matrix.det_one⟩

/-- The rotation in the plane of a and b. -/
def rot {n : Nat} (a b : Fin n) (c s : ℝ) : Matrix (Fin n) (Fin n) ℝ := fun i k =>
  if i = a then c * (if k = a then 1 else 0) - s * (if k = b then 1 else 0)
  else if i = b then s * (if k = a then 1 else 0) + c * (if k = b then 1 else 0)
  else if k = i then 1 else 0

theorem rot_mul {n : Nat} (a b : Fin n) (c s : ℝ) (A : Matrix (Fin n) (Fin n) ℝ) (i j : Fin n) :
    (rot a b c s * A) i j = if i = a then c * A a j - s * A b j else if i = b then s * A a j + c * A b j else A i j := by
  rw [Matrix.mul_apply]
  simp only [rot]
  split
  · simp [sub_mul, Finset.sum_sub_distrib]
  · split
    · simp [add_mul, Finset.sum_add_distrib]
    · simp

theorem rot_orth {n : Nat} {a b : Fin n} (hab : a ≠ b) {c s : ℝ} (h : c * c + s * s = 1) : rot a b c s * (rot a b c s)ᵀ = 1 := by
  funext i j
  rw [rot_mul]
  simp only [Matrix.transpose_apply, rot, Matrix.one_apply]
  by_cases ia : i = a
  · subst ia
    by_cases ja : j = i
    · subst ja; simp [hab, hab.symm]; linear_combination h
    · by_cases jb : j = b
      · subst jb; simp [hab, hab.symm]; ring
      · simp [ja, jb, Ne.symm ja, hab, hab.symm, Ne.symm jb]
  · by_cases ib : i = b
    · subst ib
      by_cases ja : j = a
      · subst ja; simp [hab, hab.symm, ia]; ring
      · by_cases jb : j = i
        · subst jb; simp [hab, hab.symm, ia]; linear_combination h
        · simp [ja, jb, Ne.symm ja, ia, hab, hab.symm, Ne.symm jb]
    · by_cases ja : j = a
      · subst ja; simp [ia, ib]
      · by_cases jb : j = b
        · subst jb; simp [hab.symm, ia, ib]
        · simp [ia, ib, ja, jb]

theorem rot_rot3 {a b : Fin 3} (hab : a ≠ b) {c s : ℝ} (h : c * c + s * s = 1) : IsRot (rot a b c s) := by
  refine ⟨rot_orth hab h, ?_⟩
  rw [Matrix.det_fin_three]
  fin_cases a <;> fin_cases b <;> simp [rot] at hab ⊢ <;> linear_combination h

theorem rot_rot2 {c s : ℝ} (h : c * c + s * s = 1) : IsRot (rot (0 : Fin 2) 1 c s) := by
  refine ⟨rot_orth (by decide) h, ?_⟩
  rw [Matrix.det_fin_two]
  simp [rot]; linear_combination h

/-! ## The loops -/

theorem row_apply (n : Nat) (g : Givens) (A : Mx) (hne : g.rowi ≠ g.rowk) (i j : Nat) :
    g.row n A i j = if j < n then (if i = g.rowi then g.c * A g.rowi j - g.s * A g.rowk j
      else if i = g.rowk then g.s * A g.rowi j + g.c * A g.rowk j else A i j) else A i j := by
  rw [Givens.row]
  induction n generalizing i j with
  | zero => rfl
  | succ n ih =>
    rw [forN_succ]
    simp only [set]
    by_cases hj : j = n
    · subst hj
      simp only [ih, Nat.lt_irrefl, if_false, Nat.lt_succ_self, if_true, and_true]
      by_cases h1 : i = g.rowi
      · simp [h1, hne]
      · simp [h1]
    · have : j < n + 1 ↔ j < n := by omega
      simp only [hj, and_false, if_false, ih, this]

theorem col_apply (n : Nat) (g : Givens) (A : Mx) (hne : g.rowi ≠ g.rowk) (i j : Nat) :
    g.col n A i j = if i < n then (if j = g.rowi then g.c * A i g.rowi - g.s * A i g.rowk
      else if j = g.rowk then g.s * A i g.rowi + g.c * A i g.rowk else A i j) else A i j := by
  rw [Givens.col]
  induction n generalizing i j with
  | zero => rfl
  | succ n ih =>
    rw [forN_succ]
    simp only [set]
    by_cases hj : i = n
    · subst hj
      simp only [ih, Nat.lt_irrefl, if_false, Nat.lt_succ_self, if_true, true_and]
      by_cases h1 : j = g.rowi
      · simp [h1, hne]
      · simp [h1]
    · have : i < n + 1 ↔ i < n := by omega
      simp only [hj, false_and, if_false, ih, this]

theorem row_mat {n : Nat} {g : Givens} {a b : Fin n} (ha : g.rowi = a) (hb : g.rowk = b) (hab : a ≠ b) (A : Mx) :
    mx n (g.row n A) = rot a b g.c g.s * mx n A := by
  have hne : g.rowi ≠ g.rowk := by rw [ha, hb]; exact fun h => hab (Fin.ext h)
  funext i j
  rw [rot_mul, mx, row_apply n g A hne, if_pos j.2]
  simp only [ha, hb, mx, Fin.ext_iff]

theorem col_mat {n : Nat} {g : Givens} {a b : Fin n} (ha : g.rowi = a) (hb : g.rowk = b) (hab : a ≠ b) (A : Mx) :
    mx n (g.col n A) = mx n A * (rot a b g.c g.s)ᵀ := by
  have hne : g.rowi ≠ g.rowk := by rw [ha, hb]; exact fun h => hab (Fin.ext h)
  have h : mx n A * (rot a b g.c g.s)ᵀ = (rot a b g.c g.s * (mx n A)ᵀ)ᵀ := by rw [Matrix.transpose_mul, Matrix.transpose_transpose]
  rw [h]
  funext i j
  rw [Matrix.transpose_apply, rot_mul, mx, col_apply n g A hne, if_pos i.2]
  simp only [ha, hb, mx, Fin.ext_iff, Matrix.transpose_apply]

theorem fill_mat {n : Nat} {g : Givens} {a b : Fin n} (ha : g.rowi = a) (hb : g.rowk = b) (hab : a ≠ b) : mx n g.fill = (rot a b g.c g.s)ᵀ := by
  have hne : (a : Nat) ≠ b := fun h => hab (Fin.ext h)
  funext i j
  simp only [mx, Givens.fill, set, identity, ha, hb, Matrix.transpose_apply, rot, ← Fin.ext_iff]
  by_cases ia : i = a
  · subst ia
    by_cases ja : j = i
    · subst ja; simp [hab]
    · by_cases jb : j = b
      · subst jb; simp [hab, hab.symm]
      · simp [ja, jb, Ne.symm ja]
  · by_cases ib : i = b
    · subst ib
      by_cases ja : j = a
      · subst ja; simp [hab, hab.symm]
      · by_cases jb : j = i
        · subst jb; simp [hab.symm]
        · simp [ja, jb, Ne.symm jb]
    · simp only [ia, ib, false_and, if_false]
      by_cases ja : j = a
      · subst ja; simp [ia]
      · by_cases jb : j = b
        · subst jb; simp [hab.symm, ib]
        · simp [ja, jb]

theorem identity_mat (n : Nat) : mx n identity = 1 := by
  funext i j; simp only [mx, identity, Matrix.one_apply, Fin.ext_iff]

/-! ## The computed rotations -/

@[simp] theorem conv_rowi (g : Givens) (a b : ℝ) : (g.conv a b).rowi = g.rowi := by simp only [Givens.conv]; split <;> rfl
@[simp] theorem conv_rowk (g : Givens) (a b : ℝ) : (g.conv a b).rowk = g.rowk := by simp only [Givens.conv]; split <;> rfl
@[simp] theorem unconv_rowi (g : Givens) (a b : ℝ) : (g.unconv a b).rowi = g.rowi := by simp only [Givens.unconv]; split <;> rfl
@[simp] theorem unconv_rowk (g : Givens) (a b : ℝ) : (g.unconv a b).rowk = g.rowk := by simp only [Givens.unconv]; split <;> rfl
@[simp] theorem mk'_rowi (a b : ℝ) (i k : Nat) : (Givens.mk' a b i k).rowi = i := conv_rowi _ _ _
@[simp] theorem mk'_rowk (a b : ℝ) (i k : Nat) : (Givens.mk' a b i k).rowk = k := conv_rowk _ _ _
@[simp] theorem of_rowi (i k : Nat) : (Givens.of i k).rowi = i := rfl
@[simp] theorem of_rowk (i k : Nat) : (Givens.of i k).rowk = k := rfl

theorem sq_sum_pos {a b : ℝ} (h : a * a + b * b ≠ 0) : 0 < a * a + b * b :=
  lt_of_le_of_ne (add_nonneg (mul_self_nonneg a) (mul_self_nonneg b)) (Ne.symm h)

theorem sq_sum_zero {a b : ℝ} (h : a * a + b * b = 0) : a = 0 ∧ b = 0 :=
  ⟨by nlinarith [mul_self_nonneg a, mul_self_nonneg b], by nlinarith [mul_self_nonneg a, mul_self_nonneg b]⟩

theorem rsqrt_sq {d : ℝ} (h : 0 < d) : d * (rsqrt d * rsqrt d) = 1 ∧ d * rsqrt d = √d := by
  have hs := Real.mul_self_sqrt h.le
  have hn : √d ≠ 0 := (Real.sqrt_pos.2 h).ne'
  constructor
  · rw [rsqrt, div_mul_div_comm, hs, one_mul]; exact mul_one_div_cancel h.ne'
  · rw [rsqrt, mul_one_div, div_eq_iff hn, hs]

theorem conv_unit (g : Givens) (a b : ℝ) : (g.conv a b).c * (g.conv a b).c + (g.conv a b).s * (g.conv a b).s = 1 := by
  by_cases h : a * a + b * b = 0
  · obtain ⟨rfl, rfl⟩ := sq_sum_zero h
    simp [Givens.conv]
  · have hp := sq_sum_pos h
    simp only [Givens.conv, ne_eq, h, not_false_eq_true, if_true]
    linear_combination (rsqrt_sq hp).1

theorem conv_zero (g : Givens) (a b : ℝ) : (g.conv a b).s * a + (g.conv a b).c * b = 0 := by
  by_cases h : a * a + b * b = 0
  · obtain ⟨rfl, rfl⟩ := sq_sum_zero h
    simp [Givens.conv]
  · have hp := sq_sum_pos h
    simp only [Givens.conv, ne_eq, h, not_false_eq_true, if_true]
    ring

theorem conv_len (g : Givens) (a b : ℝ) : (g.conv a b).c * a - (g.conv a b).s * b = √(a * a + b * b) := by
  by_cases h : a * a + b * b = 0
  · obtain ⟨rfl, rfl⟩ := sq_sum_zero h
    simp [Givens.conv]
  · have hp := sq_sum_pos h
    simp only [Givens.conv, ne_eq, h, not_false_eq_true, if_true]
    linear_combination (rsqrt_sq hp).2

theorem unconv_unit (g : Givens) (a b : ℝ) : (g.unconv a b).c * (g.unconv a b).c + (g.unconv a b).s * (g.unconv a b).s = 1 := by
  by_cases h : a * a + b * b = 0
  · obtain ⟨rfl, rfl⟩ := sq_sum_zero h
    simp [Givens.unconv]
  · have hp := sq_sum_pos h
    simp only [Givens.unconv, ne_eq, h, not_false_eq_true, if_true]
    linear_combination (rsqrt_sq hp).1

theorem unconv_zero (g : Givens) (a b : ℝ) : (g.unconv a b).c * a - (g.unconv a b).s * b = 0 := by
  by_cases h : a * a + b * b = 0
  · obtain ⟨rfl, rfl⟩ := sq_sum_zero h
    simp [Givens.unconv]
  · have hp := sq_sum_pos h
    simp only [Givens.unconv, ne_eq, h, not_false_eq_true, if_true]
    ring

theorem unconv_len (g : Givens) (a b : ℝ) : (g.unconv a b).s * a + (g.unconv a b).c * b = √(a * a + b * b) := by
  by_cases h : a * a + b * b = 0
  · obtain ⟨rfl, rfl⟩ := sq_sum_zero h
    simp [Givens.unconv]
  · have hp := sq_sum_pos h
    simp only [Givens.unconv, ne_eq, h, not_false_eq_true, if_true]
    linear_combination (rsqrt_sq hp).2

theorem mk'_unit (a b : ℝ) (i k : Nat) : (Givens.mk' a b i k).c * (Givens.mk' a b i k).c + (Givens.mk' a b i k).s * (Givens.mk' a b i k).s = 1 :=
  conv_unit _ a b

theorem mk'_zero (a b : ℝ) (i k : Nat) : (Givens.mk' a b i k).s * a + (Givens.mk' a b i k).c * b = 0 := conv_zero _ a b

/-! ## Decompositions in three dimensions -/

/-- `U H Vᵀ` is the matrix A, and U and V are rotations. -/
structure Good (A : Matrix (Fin 3) (Fin 3) ℝ) (x : St) : Prop where
  rep : mx 3 x.U * mx 3 x.H * (mx 3 x.V)ᵀ = A
  rotU : IsRot (mx 3 x.U)
  rotV : IsRot (mx 3 x.V)

theorem Good.row {A : Matrix (Fin 3) (Fin 3) ℝ} {x : St} (h : Good A x) {g : Givens} (a b : Fin 3) (ha : g.rowi = a) (hb : g.rowk = b) (hab : a ≠ b)
    (hu : g.c * g.c + g.s * g.s = 1) : Good A ⟨g.row 3 x.H, g.col 3 x.U, x.V⟩ := by
  have hr := rot_rot3 hab hu
  refine ⟨?_, ?_, h.rotV⟩
  · simp only [row_mat ha hb hab, col_mat ha hb hab]
    rw [Matrix.mul_assoc (mx 3 x.U), ← Matrix.mul_assoc _ _ (mx 3 x.H), hr.tmul, Matrix.one_mul, h.rep]
  · simp only [col_mat ha hb hab]; exact h.rotU.mul hr.transpose

theorem Good.col {A : Matrix (Fin 3) (Fin 3) ℝ} {x : St} (h : Good A x) {g : Givens} (a b : Fin 3) (ha : g.rowi = a) (hb : g.rowk = b) (hab : a ≠ b)
    (hu : g.c * g.c + g.s * g.s = 1) : Good A ⟨g.col 3 x.H, x.U, g.col 3 x.V⟩ := by
  have hr := rot_rot3 hab hu
  refine ⟨?_, h.rotU, ?_⟩
  · simp only [col_mat ha hb hab]
    rw [Matrix.transpose_mul, Matrix.transpose_transpose, ← Matrix.mul_assoc, ← Matrix.mul_assoc, Matrix.mul_assoc _ _ (rot a b g.c g.s), hr.tmul,
      Matrix.mul_one, h.rep]
  · simp only [col_mat ha hb hab]; exact h.rotV.mul hr.transpose

/-- Upper bidiagonal matrices. -/
def Bidiagonal (H : Mx) : Prop := H 0 2 = 0 ∧ H 1 0 = 0 ∧ H 2 0 = 0 ∧ H 2 1 = 0

theorem zeroChasing_good {A : Matrix (Fin 3) (Fin 3) ℝ} {x : St} (h : Good A x) : Good A (zeroChasing x) := by
  unfold zeroChasing
  set r1 := Givens.mk' (x.H 0 0) (x.H 1 0) 0 1 with hr1
  have h1 : Good A ⟨r1.row 3 x.H, r1.col 3 x.U, x.V⟩ := h.row 0 1 (by simp [hr1]) (by simp [hr1]) (by decide) (mk'_unit _ _ _ _)
  have h2 : ∀ a b : ℝ, Good A ⟨((Givens.of 1 2).conv a b).col 3 (r1.row 3 x.H), r1.col 3 x.U, ((Givens.of 1 2).conv a b).col 3 x.V⟩ :=
    fun a b => h1.col 1 2 (by simp) (by simp) (by decide) (conv_unit _ _ _)
  dsimp only
  by_cases hc : x.H 1 0 = 0
  · rw [if_neg (by rw [hc]; simp)]
    exact (h2 _ _).row 1 2 (by simp) (by simp) (by decide) (mk'_unit _ _ _ _)
  · rw [if_pos hc]
    exact (h2 _ _).row 1 2 (by simp) (by simp) (by decide) (mk'_unit _ _ _ _)

theorem zeroChasing_bidiagonal {x : St} (h : x.H 2 0 = 0) : Bidiagonal (zeroChasing x).H := by
  have key : ∀ r2 : Givens, r2.rowi = 1 → r2.rowk = 2 →
      r2.s * ((Givens.mk' (x.H 0 0) (x.H 1 0) 0 1).row 3 x.H 0 1) + r2.c * ((Givens.mk' (x.H 0 0) (x.H 1 0) 0 1).row 3 x.H 0 2) = 0 →
      Bidiagonal ((Givens.mk' (r2.col 3 ((Givens.mk' (x.H 0 0) (x.H 1 0) 0 1).row 3 x.H) 1 1)
        (r2.col 3 ((Givens.mk' (x.H 0 0) (x.H 1 0) 0 1).row 3 x.H) 2 1) 1 2).row 3 (r2.col 3 ((Givens.mk' (x.H 0 0) (x.H 1 0) 0 1).row 3 x.H))) := by
    intro r2 hi hk hz
    have hne : r2.rowi ≠ r2.rowk := by rw [hi, hk]; decide
    set K := (Givens.mk' (x.H 0 0) (x.H 1 0) 0 1).row 3 x.H with hK
    have k10 : K 1 0 = 0 := by rw [hK, row_apply _ _ _ (by simp)]; simpa using mk'_zero _ _ _ _
    have k20 : K 2 0 = 0 := by rw [hK, row_apply _ _ _ (by simp)]; simpa using h
    have l02 : r2.col 3 K 0 2 = 0 := by rw [col_apply _ _ _ hne]; simpa [hi, hk] using hz
    have l10 : r2.col 3 K 1 0 = 0 := by rw [col_apply _ _ _ hne]; simpa [hi, hk] using k10
    have l20 : r2.col 3 K 2 0 = 0 := by rw [col_apply _ _ _ hne]; simpa [hi, hk] using k20
    set L := r2.col 3 K with hL
    refine ⟨?_, ?_, ?_, ?_⟩ <;> rw [row_apply _ _ _ (by simp)]
    · simpa using l02
    · simp [l10, l20]
    · simp [l10, l20]
    · simpa using mk'_zero _ _ _ _
  unfold zeroChasing
  dsimp only
  by_cases hc : x.H 1 0 = 0
  · rw [if_neg (by rw [hc]; simp)]
    refine key _ (by simp) (by simp) ?_
    have hz := conv_zero (Givens.of 1 2) (x.H 0 1) (x.H 0 2)
    rw [row_apply _ _ _ (by simp), row_apply _ _ _ (by simp)]
    simp only [mk'_rowi, mk'_rowk]
    norm_num
    have hs : (Givens.mk' (x.H 0 0) (x.H 1 0) 0 1).s = 0 := by
      rw [hc, Givens.mk', Givens.conv]; split <;> simp
    rw [hs]
    linear_combination (Givens.mk' (x.H 0 0) (x.H 1 0) 0 1).c * hz
  · rw [if_pos hc]
    refine key _ (by simp) (by simp) ?_
    have hz := conv_zero (Givens.of 1 2) (x.H 0 0 * x.H 0 1 + x.H 1 0 * x.H 1 1) (x.H 0 0 * x.H 0 2 + x.H 1 0 * x.H 1 2)
    rw [row_apply _ _ _ (by simp), row_apply _ _ _ (by simp)]
    simp only [mk'_rowi, mk'_rowk]
    norm_num
    have hd : x.H 0 0 * x.H 0 0 + x.H 1 0 * x.H 1 0 ≠ 0 := by
      intro e; apply hc; nlinarith [mul_self_nonneg (x.H 0 0), mul_self_nonneg (x.H 1 0)]
    have hcc : (Givens.mk' (x.H 0 0) (x.H 1 0) 0 1).c = x.H 0 0 * rsqrt (x.H 0 0 * x.H 0 0 + x.H 1 0 * x.H 1 0) := by
      rw [Givens.mk', Givens.conv]; simp only [if_pos hd]
    have hss : (Givens.mk' (x.H 0 0) (x.H 1 0) 0 1).s = -x.H 1 0 * rsqrt (x.H 0 0 * x.H 0 0 + x.H 1 0 * x.H 1 0) := by
      rw [Givens.mk', Givens.conv]; simp only [if_pos hd]
    rw [hcc, hss]
    linear_combination rsqrt (x.H 0 0 * x.H 0 0 + x.H 1 0 * x.H 1 0) * hz

theorem upperBidiagonalize_good (H : Mx) : Good (mx 3 H) (upperBidiagonalize H) := by
  apply zeroChasing_good
  have h0 : Good (mx 3 H) ⟨H, identity, identity⟩ := by
    refine ⟨?_, ?_, ?_⟩ <;> simp only [identity_mat]
    · simp
    · exact IsRot.one
    · exact IsRot.one
  exact h0.row 1 2 (by simp) (by simp) (by decide) (mk'_unit _ _ _ _)

theorem upperBidiagonalize_bidiagonal (H : Mx) : Bidiagonal (upperBidiagonalize H).H := by
  apply zeroChasing_bidiagonal
  dsimp only
  rw [row_apply _ _ _ (by simp)]
  simpa using mk'_zero (H 1 0) (H 2 0) 1 2

theorem qrStep_good {A : Matrix (Fin 3) (Fin 3) ℝ} {x : St} (h : Good A x) : Good A (qrStep x) :=
  zeroChasing_good (h.col 0 1 (by simp) (by simp) (by decide) (conv_unit _ _ _))

theorem qrStep_bidiagonal {x : St} (h : Bidiagonal x.H) : Bidiagonal (qrStep x).H := by
  apply zeroChasing_bidiagonal
  dsimp only
  rw [col_apply _ _ _ (by simp)]
  simp [h.2.2.1, h.2.2.2]

theorem qrLoop_spec {A : Matrix (Fin 3) (Fin 3) ℝ} {tol : ℝ} {fuel : Nat} {x y : St} (h : Good A x) (hb : Bidiagonal x.H) (e : qrLoop tol fuel x = some y) :
    Good A y ∧ Bidiagonal y.H ∧ ¬ Running tol y.H := by
  induction fuel generalizing x with
  | zero =>
    rw [qrLoop] at e
    split at e
    · cases e
    · cases e; rename_i hr; exact ⟨h, hb, hr⟩
  | succ fuel ih =>
    rw [qrLoop] at e
    split at e
    · exact ih (qrStep_good h) (qrStep_bidiagonal hb) e
    · cases e; rename_i hr; exact ⟨h, hb, hr⟩

end Verif.Rot
