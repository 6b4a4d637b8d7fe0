import Verif.Proof.EigenJacobi
import Verif.Proof.EigenPd

/-!
Eigenvalue decompositions of symmetric matrices and the projection to positive semidefinite matrices (C77).
-/
namespace Verif.Eig

open Matrix
open Verif.Mat (forN forN_succ forN_zero forN_inv)
open Verif.Rot (Mx identity mx frobSq)

/-! ## Matrices of any size -/

theorem sym_of_symmetric {n : Nat} {A : Mx} (hA : ∀ i j, i < n → j < n → A i j = A j i) : sym n A (fun k => A k k) = mx n A := by
  funext i j
  simp only [sym, mx]
  split
  · rename_i h; rw [h]
  · split
    · rfl
    · exact hA _ _ j.2 i.2

/-- The iteration ends for every symmetric matrix other than 0, of every size from 2. -/
theorem eigenN_ends (fresh : Bool) {c : ℝ} (hc : 0 < c) {n : Nat} (hn : 2 ≤ n) (A : Mx) (h0 : ∃ i j, i < n ∧ j < n ∧ A i j ≠ 0) :
    ∃ fuel d, eigenN fresh c n fuel A = .ok d := by
  have ht : 0 < maxS n A * c := mul_pos (maxS_pos h0) hc
  obtain ⟨k, hk⟩ := exists_nat_gt ((frobSq (sym n A fun k => A k k)) / (2 * (maxS n A * c) ^ 2))
  refine ⟨k + 1, ?_⟩
  apply loop_ends hn fresh ht k _ (start_inv n A)
  have := (div_lt_iff₀ (by positivity)).1 hk
  have h2 : 0 ≤ ∑ i : Fin n, (start n A).e i ^ 2 := Finset.sum_nonneg fun i _ => sq_nonneg _
  linarith

/-- What the code guarantees: E is orthogonal and the values are the diagonal of Eᵀ A E.  (That the rest of Eᵀ A E is small is not guaranteed, see
`eigenN_violated`.) -/
theorem eigenN_partial {c : ℝ} (hc : 0 < c) {n : Nat} (hn : 2 ≤ n) (fuel : Nat) (A : Mx) (hA : ∀ i j, i < n → j < n → A i j = A j i)
    (h0 : ∃ i j, i < n ∧ j < n ∧ A i j ≠ 0) {d : Dec} (hd : eigenN false c n fuel A = .ok d) :
    mx n d.E * (mx n d.E)ᵀ = 1 ∧ ∀ i : Fin n, ((mx n d.E)ᵀ * mx n A * mx n d.E) i i = d.e i := by
  have ht : 0 < maxS n A * c := mul_pos (maxS_pos h0) hc
  obtain ⟨S, h1, h2, -⟩ := loop_ok hn false ht (start_inv n A) (fun h => absurd h (by decide)) hd
  refine ⟨h2, fun i => ?_⟩
  have h3 := mul_eq_one_comm.1 h2
  rw [sym_of_symmetric hA] at h1
  have : (mx n d.E)ᵀ * mx n A * mx n d.E = sym n S d.e := by
    rw [← h1]
    calc (mx n d.E)ᵀ * (mx n d.E * sym n S d.e * (mx n d.E)ᵀ) * mx n d.E
        = ((mx n d.E)ᵀ * mx n d.E) * sym n S d.e * ((mx n d.E)ᵀ * mx n d.E) := by simp only [Matrix.mul_assoc]
      _ = _ := by rw [h3, Matrix.one_mul, Matrix.mul_one]
  rw [this]; simp [sym]

/-- If the search looked at all rows, all entries of Eᵀ A E outside the diagonal would be below the tolerance. -/
theorem eigenN_fresh {c : ℝ} (hc : 0 < c) {n : Nat} (hn : 2 ≤ n) (fuel : Nat) (A : Mx) (hA : ∀ i j, i < n → j < n → A i j = A j i)
    (h0 : ∃ i j, i < n ∧ j < n ∧ A i j ≠ 0) {d : Dec} (hd : eigenN true c n fuel A = .ok d) :
    mx n d.E * (mx n d.E)ᵀ = 1 ∧ (∀ i : Fin n, ((mx n d.E)ᵀ * mx n A * mx n d.E) i i = d.e i) ∧
    ∀ i j : Fin n, i ≠ j → |((mx n d.E)ᵀ * mx n A * mx n d.E) i j| < maxS n A * c := by
  have ht : 0 < maxS n A * c := mul_pos (maxS_pos h0) hc
  obtain ⟨S, h1, h2, hf⟩ := loop_ok hn true ht (start_inv n A) (fun _ => rfl) hd
  have h3 := mul_eq_one_comm.1 h2
  rw [sym_of_symmetric hA] at h1
  have : (mx n d.E)ᵀ * mx n A * mx n d.E = sym n S d.e := by
    rw [← h1]
    calc (mx n d.E)ᵀ * (mx n d.E * sym n S d.e * (mx n d.E)ᵀ) * mx n d.E
        = ((mx n d.E)ᵀ * mx n d.E) * sym n S d.e * ((mx n d.E)ᵀ * mx n d.E) := by simp only [Matrix.mul_assoc]
      _ = _ := by rw [h3, Matrix.one_mul, Matrix.mul_one]
  rw [this]
  refine ⟨h2, fun i => by simp [sym], fun i j hij => ?_⟩
  rcases lt_or_gt_of_ne hij with h | h
  · have : sym n S d.e i j = S i j := by simp [sym, hij, h]
    rw [this]; exact hf rfl i j h j.2
  · have : sym n S d.e i j = S j i := by simp [sym, hij, h.not_gt]
    rw [this]; exact hf rfl j i h i.2

/-- The zero matrix: 0 / 0. -/
theorem eigenN_zero_violated (fresh : Bool) (c : ℝ) {n : Nat} (hn : 2 ≤ n) (fuel : Nat) : eigenN fresh c n (fuel + 1) (fun _ _ => 0) = .nan := by
  have hm : maxS n (fun _ _ => 0) = 0 := by
    rcases (maxS_spec n fun _ _ => 0).2.2 with h | ⟨i, j, -, -, h⟩
    · exact h
    · rw [h, abs_zero]
  rw [eigenN, loop, hm, zero_mul]
  have hinv := start_inv n fun _ _ => 0
  rw [if_neg (by rw [hinv.st]; omega)]
  obtain ⟨p1, -⟩ := pivotRow_spec hn (start n fun _ _ => 0)
  obtain ⟨i1, i2⟩ := hinv.ind _ p1
  dsimp only
  rw [if_neg (not_not.2 ⟨by omega, i2⟩)]
  simp [start]

/-- A matrix of one row: the code reads S(0, 1). -/
theorem eigenN_one_violated (c : ℝ) (A : Mx) (fuel : Nat) : eigenN false c 1 (fuel + 1) A = .outOfRange := by
  rw [eigenN, loop, if_neg (by simp [start])]
  have h : pivotRow 1 (start 1 A) = 0 := rfl
  have h' : (start 1 A).ind 0 = 1 := rfl
  dsimp only
  rw [h, h', if_pos (by omega)]

/-- The matrix of `eigenN_violated`. -/
def witness : Mx := fun i j =>
  if i = 0 ∧ j = 1 ∨ i = 1 ∧ j = 0 ∨ i = 0 ∧ j = 2 ∨ i = 2 ∧ j = 0 then 1 else if i = 1 ∧ j = 2 ∨ i = 2 ∧ j = 1 then 2 else 0

theorem eigenN_witness {c : ℝ} (hc : 0 < c) (hc1 : c < 1) (fuel : Nat) : ∃ d, eigenN false c 4 (fuel + 2) witness = .ok d ∧ d.e 2 = 2 := by
  have hle : maxS 4 witness = 2 := by
    apply le_antisymm
    · rcases (maxS_spec 4 witness).2.2 with h | ⟨i, j, -, -, h⟩
      · rw [h]; norm_num
      · rw [h, witness]; split
        · norm_num
        · split <;> norm_num
    · have := (maxS_spec 4 witness).2.1 1 2 (by decide) (by decide)
      have h2 : |witness 1 2| = 2 := by norm_num [witness]
      rwa [h2] at this
  have ind0 : maxind 4 witness 0 = 1 := by norm_num [maxind, forN_succ, forN_zero, witness]
  have ind1 : maxind 4 witness 1 = 2 := by norm_num [maxind, forN_succ, forN_zero, witness]
  have ind2 : maxind 4 witness 2 = 3 := by norm_num [maxind, forN_succ, forN_zero, witness]
  have piv : pivotRow 4 (start 4 witness) = 1 := by
    norm_num [pivotRow, forN_succ, forN_zero, start, ind0, ind1, ind2, witness]
  obtain ⟨q, hq⟩ : ∃ q : ℝ, q = 2 / √(2 * 2 + 2 * 2) := ⟨_, rfl⟩
  obtain ⟨S', hS'⟩ : ∃ S', S' = rotateAll 4 witness 1 2 q q := ⟨_, rfl⟩
  have hpass : pass false 4 1 2 (start 4 witness) = ⟨S', rotateE 4 identity 1 2 q q, upd (upd (fun k => witness k k) 1 (-2)) 2 2,
      upd (upd (maxind 4 witness) 1 (maxind 4 S' 1)) 2 (maxind 4 S' 2), fun _ => true, 4⟩ := by
    have hs4 : √(2 * 2 : ℝ) = 2 := Real.sqrt_mul_self (by norm_num)
    rw [pass]
    have w12 : (start 4 witness).S 1 2 = 2 := by norm_num [start, witness]
    have w11 : (start 4 witness).e 1 = 0 := by norm_num [start, witness]
    have w22 : (start 4 witness).e 2 = 0 := by norm_num [start, witness]
    have hd : |((0 : ℝ) - 0) / 2| + √(2 * 2 + (0 - 0) / 2 * ((0 - 0) / 2)) = 2 := by
      rw [sub_zero, zero_div, abs_zero, zero_mul, add_zero, hs4]; norm_num
    rw [w12, w11, w22, hd, ← hq, if_neg (by norm_num), if_neg (by norm_num), update_eq (k := 1) (x := start 4 witness) rfl (by norm_num)]
    rw [update_eq rfl (by norm_num), hS']
    have e1 : (start 4 witness).e = fun k => witness k k := rfl
    dsimp only
    rw [w11, e1]
    have : upd (fun k => witness k k) 1 (0 + -(2 * 2 / 2)) 2 = 0 := by norm_num [upd, witness]
    rw [this]
    norm_num
    exact ⟨rfl, rfl, rfl, rfl, rfl⟩
  have ap := fun a b hab hb => rotateAll_apply (n := 4) (k := 1) (l := 2) (by decide) (by decide) witness q q a b hab hb
  simp only [← hS'] at ap
  have s01 : S' 0 1 = 0 := by rw [ap 0 1 (by decide) (by decide)]; norm_num [witness]
  have s12 : S' 1 2 = 0 := by rw [ap 1 2 (by decide) (by decide)]; norm_num
  have s13 : S' 1 3 = 0 := by rw [ap 1 3 (by decide) (by decide)]; norm_num [witness]
  have s23 : S' 2 3 = 0 := by rw [ap 2 3 (by decide) (by decide)]; norm_num [witness]
  have i1 : maxind 4 S' 1 = 2 := by norm_num [maxind, forN_succ, forN_zero, s12, s13]
  have i2 : maxind 4 S' 2 = 3 := by norm_num [maxind, forN_succ, forN_zero]
  refine ⟨⟨upd (upd (fun k => witness k k) 1 (-2)) 2 2, rotateE 4 identity 1 2 q q⟩, ?_, rfl⟩
  rw [eigenN, loop, hle, if_neg (by simp [start])]
  dsimp only
  have l1 : (start 4 witness).ind 1 = 2 := ind1
  have w12 : (start 4 witness).S 1 2 = 2 := by norm_num [start, witness]
  rw [piv, l1, if_neg (by omega), w12, if_neg (by norm_num; linarith), if_neg, hpass]
  · rw [loop, if_neg (by norm_num)]
    have piv' : pivotRow 4 ⟨S', rotateE 4 identity 1 2 q q, upd (upd (fun k => witness k k) 1 (-2)) 2 2,
        upd (upd (maxind 4 witness) 1 (maxind 4 S' 1)) 2 (maxind 4 S' 2), fun _ => true, 4⟩ = 0 := by
      norm_num [pivotRow, forN_succ, forN_zero, upd, ind0, i1, i2, s01, s12, s23]
    dsimp only
    rw [piv']
    have : upd (upd (maxind 4 witness) 1 (maxind 4 S' 1)) 2 (maxind 4 S' 2) 0 = 1 := by simp [upd, ind0]
    rw [this, if_neg (by omega), if_pos (by rw [s01, abs_zero]; linarith)]
  · have : 0 < √((2 : ℝ) * 2 + ((start 4 witness).e 2 - (start 4 witness).e 1) / 2 * (((start 4 witness).e 2 - (start 4 witness).e 1) / 2)) :=
      Real.sqrt_pos.2 (add_pos_of_pos_of_nonneg (by norm_num) (mul_self_nonneg _))
    exact (add_pos_of_nonneg_of_pos (abs_nonneg _) this).ne'

/-- The search keeps a wrong index for the rows other than k and l: for this matrix the code returns the value 2, which is not an eigenvalue. -/
theorem eigenN_violated {c : ℝ} (hc : 0 < c) (hc1 : c < 1) (fuel : Nat) :
    ∃ d, eigenN false c 4 (fuel + 2) witness = .ok d ∧ ∀ v : Fin 4 → ℝ, mx 4 witness *ᵥ v = d.e 2 • v → v = 0 := by
  obtain ⟨d, h1, h2⟩ := eigenN_witness hc hc1 fuel
  refine ⟨d, h1, fun v hv => ?_⟩
  rw [h2] at hv
  have h0 := congrFun hv 0
  have h1 := congrFun hv 1
  have h2 := congrFun hv 2
  have h3 := congrFun hv 3
  simp only [Matrix.mulVec, dotProduct, Fin.sum_univ_four, Pi.smul_apply, smul_eq_mul] at h0 h1 h2 h3
  norm_num [mx, witness] at h0 h1 h2 h3
  funext i
  fin_cases i
  · simp; linarith
  · simp; linarith
  · simp; linarith
  · simp; linarith

/-- The hypotheses of the theorems are met by the matrix. -/
example : (∀ i j, i < 4 → j < 4 → witness i j = witness j i) ∧ ∃ i j, i < 4 ∧ j < 4 ∧ witness i j ≠ 0 := by
  refine ⟨fun i j _ _ => ?_, 0, 1, by decide, by decide, by norm_num [witness]⟩
  simp only [witness]
  congr 1
  · simp only [eq_iff_iff]; omega
  · congr 1; simp only [eq_iff_iff]; omega

/-! ## Two by two -/

/-- Every symmetric matrix: E is orthogonal, the columns are eigenvectors of the values, and the values ascend. -/
theorem eigen2_spec {eps : ℝ} (he : eps < 2) {M : Mx} (hM : M 0 1 = M 1 0) :
    mx 2 (eigen2 eps M).E * (mx 2 (eigen2 eps M).E)ᵀ = 1 ∧
      mx 2 M * mx 2 (eigen2 eps M).E = mx 2 (eigen2 eps M).E * diagonal (fun i : Fin 2 => (eigen2 eps M).e i) ∧ (eigen2 eps M).e 0 ≤ (eigen2 eps M).e 1 := by
  obtain ⟨s, sh, a, b, t, v0, v1, h⟩ := eigen2_form he hM
  exact eigen2_of_form hM h

/-! ## Three by three -/

/-- The values are the zeros of the characteristic polynomial, in ascending order. -/
theorem eigen3_values (eps : ℝ) {M : Mx} (hM : ∀ i j, i < 3 → j < 3 → M i j = M j i) :
    (∀ x : ℝ, (scalar (Fin 3) x - mx 3 M).det = ∏ i : Fin 3, (x - (eigen3 eps M).e i)) ∧
      (eigen3 eps M).e 0 ≤ (eigen3 eps M).e 1 ∧ (eigen3 eps M).e 1 ≤ (eigen3 eps M).e 2 := by
  obtain ⟨s, sh, A, h⟩ := eigen3_form eps hM
  obtain ⟨hr, h01, h12⟩ := roots3_spec h.sym
  refine ⟨fun x => ?_, ?_, ?_⟩
  · obtain ⟨s1, s2, s3⟩ := hr
    simp only [tr3] at s1
    simp only [mi3] at s2
    simp only [de3] at s3
    have hm : ∀ i j : Fin 3, (scalar (Fin 3) x - mx 3 M) i j = (if i = j then x - sh else 0) - s * A i j := by
      intro i j
      rw [Matrix.sub_apply, Matrix.scalar_apply, Matrix.diagonal_apply]
      have : mx 3 M i j = s * A i j + if (i : Nat) = j then sh else 0 := h.hM i j i.2 j.2
      rw [this]
      by_cases hij : i = j
      · rw [if_pos hij, if_pos hij, if_pos (congrArg Fin.val hij)]; ring
      · rw [if_neg hij, if_neg hij, if_neg (fun hh => hij (Fin.ext hh))]; ring
    rw [Matrix.det_fin_three, Fin.prod_univ_three]
    simp only [hm, h.he]
    simp [h.sym.h01, h.sym.h02, h.sym.h12]
    generalize roots3 A 0 = r0 at *
    generalize roots3 A 1 = r1 at *
    generalize roots3 A 2 = r2 at *
    linear_combination s * (x - sh) ^ 2 * s1 - s ^ 2 * (x - sh) * s2 + s ^ 3 * s3
  · rw [h.he, h.he]; nlinarith [h.hs0]
  · rw [h.he, h.he]; nlinarith [h.hs0]

/-- E is a rotation.  Its columns are eigenvectors but for an error that is proportional to the tolerance of the number type. -/
theorem eigen3_vectors {eps : ℝ} (he0 : 0 ≤ eps) (he1 : eps < 1 / 2) {M : Mx} (hM : ∀ i j, i < 3 → j < 3 → M i j = M j i) :
    mx 3 (eigen3 eps M).E * (mx 3 (eigen3 eps M).E)ᵀ = 1 ∧ (mx 3 (eigen3 eps M).E).det = 1 ∧
      frobSq (mx 3 M * mx 3 (eigen3 eps M).E - mx 3 (eigen3 eps M).E * diagonal fun i : Fin 3 => (eigen3 eps M).e i) ≤
        2 * (2 * eps * ((eigen3 eps M).e 1 - (eigen3 eps M).e 0)) ^ 2 := by
  obtain ⟨s, sh, A, h⟩ := eigen3_form eps hM
  obtain ⟨hr, h01, h12⟩ := roots3_spec h.sym
  have hMA : mx 3 M = s • mx 3 A + sh • (1 : Matrix (Fin 3) (Fin 3) ℝ) := by
    funext i j
    rw [Matrix.add_apply, Matrix.smul_apply, Matrix.smul_apply, Matrix.one_apply]
    have : mx 3 M i j = s * A i j + if (i : Nat) = j then sh else 0 := h.hM i j i.2 j.2
    rw [this]
    by_cases hij : i = j
    · rw [if_pos hij, if_pos (congrArg Fin.val hij)]; simp [mx]
    · rw [if_neg hij, if_neg (fun hh => hij (Fin.ext hh))]; simp [mx]
  have hD : (diagonal fun i : Fin 3 => (eigen3 eps M).e i) = s • diagonal (fun i : Fin 3 => roots3 A i) + sh • (1 : Matrix (Fin 3) (Fin 3) ℝ) := by
    funext i j
    rw [Matrix.add_apply, Matrix.smul_apply, Matrix.smul_apply, Matrix.one_apply, Matrix.diagonal_apply, Matrix.diagonal_apply, h.he]
    split <;> simp
    ring
  have hR : ∀ F : Matrix (Fin 3) (Fin 3) ℝ, mx 3 M * F - F * (diagonal fun i : Fin 3 => (eigen3 eps M).e i) =
      s • (mx 3 A * F - F * diagonal (fun i : Fin 3 => roots3 A i)) := by
    intro F
    rw [hMA, hD, Matrix.add_mul, Matrix.mul_add, Matrix.smul_mul, Matrix.smul_mul, Matrix.mul_smul, Matrix.mul_smul, Matrix.one_mul, Matrix.mul_one, smul_sub]
    abel
  rw [hR, frobSq_smul, h.hE]
  by_cases hg : roots3 A 2 - roots3 A 0 ≤ eps
  · have hs := gap_zero h he1 hg
    rw [vectors3, if_pos hg]
    have hid : mx 3 identity = 1 := by funext i j; fin_cases i <;> fin_cases j <;> simp [mx, identity]
    rw [hid]
    refine ⟨by rw [Matrix.transpose_one, Matrix.mul_one], Matrix.det_one, ?_⟩
    rw [hs]
    have : (0 : ℝ) ≤ 2 * (2 * eps * ((eigen3 eps M).e 1 - (eigen3 eps M).e 0)) ^ 2 := by positivity
    simpa using this
  · obtain ⟨v1, v2, v3⟩ := vectors3_spec h.sym hr h01 h12 he0 he1 (not_le.1 hg)
    refine ⟨v1, v2, ?_⟩
    rw [h.he, h.he]
    calc _ ≤ s ^ 2 * (2 * (2 * eps * (roots3 A 1 - roots3 A 0)) ^ 2) := mul_le_mul_of_nonneg_left v3 (sq_nonneg _)
      _ = _ := by ring

/-- Without a tolerance the decomposition is exact. -/
theorem eigen3_exact {M : Mx} (hM : ∀ i j, i < 3 → j < 3 → M i j = M j i) :
    mx 3 M * mx 3 (eigen3 0 M).E = mx 3 (eigen3 0 M).E * diagonal fun i : Fin 3 => (eigen3 0 M).e i := by
  have := (eigen3_vectors (le_refl 0) (by norm_num) hM).2.2
  simp only [mul_zero, zero_mul, ne_eq, OfNat.ofNat_ne_zero, not_false_eq_true, zero_pow] at this
  exact sub_eq_zero.1 (Rot.frobSq_zero (le_antisymm this (Rot.frobSq_nonneg _)))

/-! ## Positive semidefinite -/

/-- `make_pd` returns a positive semidefinite matrix whatever the eigenvectors. -/
theorem makePd_psd (n : Nat) {eps : ℝ} (he : 0 ≤ eps) (d : Dec) : (mx n (makePd n eps d)).PosSemidef := by
  rw [makePd_mx]; exact cut_psd _ he _

/-- If the decomposition is exact, no positive semidefinite matrix is nearer to A than the result, but for the tolerance. -/
theorem makePd_nearest (n : Nat) {eps : ℝ} (he : 0 ≤ eps) {A : Mx} {d : Dec} (hE : mx n d.E * (mx n d.E)ᵀ = 1)
    (hA : mx n A * mx n d.E = mx n d.E * diagonal fun i : Fin n => d.e i) {P : Matrix (Fin n) (Fin n) ℝ} (hP : P.PosSemidef) :
    frobSq (mx n A - mx n (makePd n eps d)) ≤ frobSq (mx n A - P) + n * eps ^ 2 := by
  have : mx n A = mx n d.E * diagonal (fun i : Fin n => d.e i) * (mx n d.E)ᵀ := by
    rw [← hA, Matrix.mul_assoc, hE, Matrix.mul_one]
  rw [makePd_mx, this]
  exact cut_nearest hE he _ hP

/-- If no eigenvalue is below the tolerance, the matrix is returned unchanged. -/
theorem makePd_keeps (n : Nat) {eps : ℝ} {A : Mx} {d : Dec} (hE : mx n d.E * (mx n d.E)ᵀ = 1)
    (hA : mx n A * mx n d.E = mx n d.E * diagonal fun i : Fin n => d.e i) (hP : (mx n A - eps • (1 : Matrix (Fin n) (Fin n) ℝ)).PosSemidef) :
    mx n (makePd n eps d) = mx n A := by
  have hA' : mx n A = mx n d.E * diagonal (fun i : Fin n => d.e i) * (mx n d.E)ᵀ := by
    rw [← hA, Matrix.mul_assoc, hE, Matrix.mul_one]
  have hF' : (mx n d.E)ᵀ * mx n d.E = 1 := mul_eq_one_comm.1 hE
  have hQ := hP.conjTranspose_mul_mul_same (mx n d.E)
  rw [Matrix.conjTranspose_eq_transpose_of_trivial, Matrix.mul_sub, Matrix.sub_mul, Matrix.mul_assoc _ (mx n A), hA, ← Matrix.mul_assoc _ (mx n d.E), hF',
    Matrix.one_mul, Matrix.mul_smul, Matrix.mul_one, Matrix.smul_mul, hF'] at hQ
  have hc : (fun i : Fin n => cut eps (d.e i)) = fun i : Fin n => d.e i := by
    funext i
    have := hQ.diag_nonneg (i := i)
    simp at this
    rw [cut, if_neg (not_lt.2 this)]
  rw [makePd_mx, hc, ← hA']

/-- `make_pd` of a two by two matrix. -/
theorem makePd_two {eps : ℝ} (he0 : 0 ≤ eps) (he1 : eps < 2) {M : Mx} (hM : M 0 1 = M 1 0) :
    (mx 2 (makePd 2 eps (eigen2 eps M))).PosSemidef ∧
      (∀ P : Matrix (Fin 2) (Fin 2) ℝ, P.PosSemidef → frobSq (mx 2 M - mx 2 (makePd 2 eps (eigen2 eps M))) ≤ frobSq (mx 2 M - P) + 2 * eps ^ 2) ∧
      ((mx 2 M - eps • (1 : Matrix (Fin 2) (Fin 2) ℝ)).PosSemidef → mx 2 (makePd 2 eps (eigen2 eps M)) = mx 2 M) := by
  obtain ⟨h1, h2, -⟩ := eigen2_spec he1 hM
  exact ⟨makePd_psd 2 he0 _, fun P hP => by exact_mod_cast makePd_nearest 2 he0 h1 h2 hP, fun hP => makePd_keeps 2 h1 h2 hP⟩

/-- `make_pd` of a three by three matrix, without a tolerance: the nearest positive semidefinite matrix. -/
theorem makePd_three {M : Mx} (hM : ∀ i j, i < 3 → j < 3 → M i j = M j i) :
    (mx 3 (makePd 3 0 (eigen3 0 M))).PosSemidef ∧
      (∀ P : Matrix (Fin 3) (Fin 3) ℝ, P.PosSemidef → frobSq (mx 3 M - mx 3 (makePd 3 0 (eigen3 0 M))) ≤ frobSq (mx 3 M - P)) ∧
      ((mx 3 M).PosSemidef → mx 3 (makePd 3 0 (eigen3 0 M)) = mx 3 M) := by
  have h1 := (eigen3_vectors (le_refl 0) (by norm_num) hM).1
  have h2 := eigen3_exact hM
  refine ⟨makePd_psd 3 (le_refl 0) _, fun P hP => ?_, fun hP => makePd_keeps 3 h1 h2 (by rwa [zero_smul, sub_zero])⟩
  have := makePd_nearest 3 (le_refl 0) h1 h2 hP
  simpa using this

/-- A symmetric matrix that is neither diagonal nor semidefinite. -/
example : let M : Mx := fun i j => (i : ℝ) + j - 1
    (∀ i j, i < 3 → j < 3 → M i j = M j i) ∧ M 0 1 ≠ M 1 1 ∧ M 0 0 < 0 := by
  refine ⟨fun i j _ _ => by ring, by norm_num, by norm_num⟩

end Verif.Eig
