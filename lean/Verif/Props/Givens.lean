import Verif.Proof.GivensSvd
import Verif.Props.SmallMat

/-!
Givens rotations, QR, singular value and polar decompositions (C76).
-/
namespace Verif.Rot

open Matrix
open Verif.Mat (forN forN_succ forN_zero)

/-! ## Rotations -/

/-- `computeConventional`: a rotation that turns (a, b) into (length, 0). -/
theorem conv_spec (g : Givens) (a b : ℝ) : let r := g.conv a b
    r.c ^ 2 + r.s ^ 2 = 1 ∧ r.c * a - r.s * b = √(a ^ 2 + b ^ 2) ∧ r.s * a + r.c * b = 0 := by
  refine ⟨?_, ?_, conv_zero g a b⟩
  · have := conv_unit g a b; simpa only [pow_two] using this
  · have := conv_len g a b; simpa only [pow_two] using this

/-- `computeUnconventional`: a rotation that turns (a, b) into (0, length). -/
theorem unconv_spec (g : Givens) (a b : ℝ) : let r := g.unconv a b
    r.c ^ 2 + r.s ^ 2 = 1 ∧ r.c * a - r.s * b = 0 ∧ r.s * a + r.c * b = √(a ^ 2 + b ^ 2) := by
  refine ⟨?_, unconv_zero g a b, ?_⟩
  · have := unconv_unit g a b; simpa only [pow_two] using this
  · have := unconv_len g a b; simpa only [pow_two] using this

/-- `rowRotation`, `columnRotation` and `fill` are products with the rotation matrix of `fill`, for matrices of any size. -/
theorem rotation_spec {n : Nat} (g : Givens) (hi : g.rowi < n) (hk : g.rowk < n) (hne : g.rowi ≠ g.rowk) (A : Mx) :
    mx n (g.row n A) = (mx n g.fill)ᵀ * mx n A ∧ mx n (g.col n A) = mx n A * mx n g.fill ∧
    (∀ i j : Fin n, mx n g.fill i j = if i.1 = g.rowi ∧ j.1 = g.rowi ∨ i.1 = g.rowk ∧ j.1 = g.rowk then g.c
      else if i.1 = g.rowi ∧ j.1 = g.rowk then g.s else if i.1 = g.rowk ∧ j.1 = g.rowi then -g.s else if i = j then 1 else 0) := by
  have hab : (⟨g.rowi, hi⟩ : Fin n) ≠ ⟨g.rowk, hk⟩ := fun h => hne (congrArg Fin.val h)
  have hf := fill_mat (g := g) (a := ⟨g.rowi, hi⟩) (b := ⟨g.rowk, hk⟩) rfl rfl hab
  refine ⟨?_, ?_, ?_⟩
  · rw [hf, Matrix.transpose_transpose]; exact row_mat rfl rfl hab A
  · rw [hf]; exact col_mat rfl rfl hab A
  · intro i j
    simp only [mx, Givens.fill, set, identity, Fin.ext_iff]
    by_cases h1 : i.1 = g.rowi <;> by_cases h2 : j.1 = g.rowi <;> by_cases h3 : i.1 = g.rowk <;> by_cases h4 : j.1 = g.rowk <;>
      simp_all

/-- The matrix of a rotation with c² + s² = 1 is orthogonal; `transposeInPlace` transposes it. -/
theorem fill_orthogonal {n : Nat} (g : Givens) (hi : g.rowi < n) (hk : g.rowk < n) (hne : g.rowi ≠ g.rowk) (hu : g.c ^ 2 + g.s ^ 2 = 1) :
    mx n g.fill * (mx n g.fill)ᵀ = 1 ∧ mx n g.transposed.fill = (mx n g.fill)ᵀ := by
  have hab : (⟨g.rowi, hi⟩ : Fin n) ≠ ⟨g.rowk, hk⟩ := fun h => hne (congrArg Fin.val h)
  have hu' : g.c * g.c + g.s * g.s = 1 := by linear_combination hu
  have hf := fill_mat (g := g) (a := ⟨g.rowi, hi⟩) (b := ⟨g.rowk, hk⟩) rfl rfl hab
  constructor
  · rw [hf, Matrix.transpose_transpose]; exact mul_eq_one_comm.1 (rot_orth hab hu')
  · funext i j
    rw [Matrix.transpose_apply, (rotation_spec g hi hk hne (fun _ _ => 0)).2.2, (rotation_spec g.transposed hi hk hne (fun _ _ => 0)).2.2]
    simp only [Givens.transposed]
    by_cases h1 : i.1 = g.rowi <;> by_cases h2 : j.1 = g.rowi <;> by_cases h3 : i.1 = g.rowk <;> by_cases h4 : j.1 = g.rowk <;>
      simp_all [eq_comm]

/-- The product of rotations in the same plane. -/
theorem mul_spec {n : Nat} (g h : Givens) (hi : g.rowi < n) (hk : g.rowk < n) (hne : g.rowi ≠ g.rowk) (h1 : h.rowi = g.rowi) (h2 : h.rowk = g.rowk) :
    mx n (g.mul h).fill = mx n g.fill * mx n h.fill := by
  have hab : (⟨g.rowi, hi⟩ : Fin n) ≠ ⟨g.rowk, hk⟩ := fun h => hne (congrArg Fin.val h)
  rw [fill_mat (g := g) (a := ⟨g.rowi, hi⟩) (b := ⟨g.rowk, hk⟩) rfl rfl hab, fill_mat (g := h) (a := ⟨g.rowi, hi⟩) (b := ⟨g.rowk, hk⟩) h1 h2 hab,
    fill_mat (g := g.mul h) (a := ⟨g.rowi, hi⟩) (b := ⟨g.rowk, hk⟩) rfl rfl hab, ← Matrix.transpose_mul]
  congr 1
  funext i j
  rw [rot_mul]
  simp only [rot, Givens.mul]
  generalize (⟨g.rowi, hi⟩ : Fin n) = a at hab ⊢
  generalize (⟨g.rowk, hk⟩ : Fin n) = b at hab ⊢
  by_cases ia : i = a
  · simp only [ia, if_true, hab.symm, if_false]; ring
  · by_cases ib : i = b
    · simp only [ib, if_true, hab.symm, if_false]; ring
    · simp only [ia, ib, if_false]

/-! ## Three by three matrices -/

/-- `zero_chasing`: for a matrix with 0 in the lower left corner, H becomes upper bidiagonal, the product U H Vᵀ stays the same, and U and V stay
rotations. -/
theorem zeroChasing_spec (x : St) (h : x.H 2 0 = 0) (hU : IsRot (mx 3 x.U)) (hV : IsRot (mx 3 x.V)) : let y := zeroChasing x
    mx 3 y.U * mx 3 y.H * (mx 3 y.V)ᵀ = mx 3 x.U * mx 3 x.H * (mx 3 x.V)ᵀ ∧ IsRot (mx 3 y.U) ∧ IsRot (mx 3 y.V) ∧ Bidiagonal y.H := by
  have hg := zeroChasing_good (A := mx 3 x.U * mx 3 x.H * (mx 3 x.V)ᵀ) (x := x) ⟨rfl, hU, hV⟩
  exact ⟨hg.rep, hg.rotU, hg.rotV, zeroChasing_bidiagonal h⟩

/-- `upper_bidiagonalize`, for every matrix. -/
theorem upperBidiagonalize_spec (A : Mx) : let y := upperBidiagonalize A
    mx 3 y.U * mx 3 y.H * (mx 3 y.V)ᵀ = mx 3 A ∧ IsRot (mx 3 y.U) ∧ IsRot (mx 3 y.V) ∧ Bidiagonal y.H := by
  have hg := upperBidiagonalize_good A
  exact ⟨hg.rep, hg.rotU, hg.rotV, upperBidiagonalize_bidiagonal A⟩

/-- `make_lambda_shape`, for every matrix. -/
theorem makeLambdaShape_spec (A : Mx) : let y := makeLambdaShape A
    mx 3 y.U * mx 3 y.H * (mx 3 y.V)ᵀ = mx 3 A ∧ IsRot (mx 3 y.U) ∧ IsRot (mx 3 y.V) ∧
    y.H 0 1 = 0 ∧ y.H 0 2 = 0 ∧ y.H 1 2 = 0 ∧ y.H 2 1 = 0 := by
  have h0 : Good (mx 3 A) ⟨A, identity, identity⟩ := by
    refine ⟨?_, ?_, ?_⟩ <;> simp only [identity_mat]
    · simp
    · exact IsRot.one
    · exact IsRot.one
  unfold makeLambdaShape
  dsimp only
  have h1 := h0.col (g := Givens.mk' (A 0 1) (A 0 2) 1 2) 1 2 (by simp) (by simp) (by decide) (mk'_unit _ _ _ _)
  have z02 : (Givens.mk' (A 0 1) (A 0 2) 1 2).col 3 A 0 2 = 0 := by
    rw [col_apply _ _ _ (by simp)]; simpa using mk'_zero _ _ _ _
  dsimp only at h1
  generalize (Givens.mk' (A 0 1) (A 0 2) 1 2).col 3 A = B at *
  generalize (Givens.mk' (A 0 1) (A 0 2) 1 2).col 3 identity = V at *
  have hr : (Givens.mk' (A 0 1) (A 0 2) 1 2).rowi = 1 ∧ (Givens.mk' (A 0 1) (A 0 2) 1 2).rowk = 2 := ⟨by simp, by simp⟩
  generalize Givens.mk' (A 0 1) (A 0 2) 1 2 = r1 at *
  have hu := unconv_unit r1 (B 1 2) (B 2 2)
  have hz := unconv_zero r1 (B 1 2) (B 2 2)
  have hr' : (r1.unconv (B 1 2) (B 2 2)).rowi = 1 ∧ (r1.unconv (B 1 2) (B 2 2)).rowk = 2 := by simpa using hr
  generalize r1.unconv (B 1 2) (B 2 2) = r2 at *
  have hne : r2.rowi ≠ r2.rowk := by rw [hr'.1, hr'.2]; decide
  have h2 := h1.row (g := r2) 1 2 (by simp [hr'.1]) (by simp [hr'.2]) (by decide) hu
  have c02 : r2.row 3 B 0 2 = 0 := by rw [row_apply _ _ _ hne, hr'.1, hr'.2]; simpa using z02
  have c12 : r2.row 3 B 1 2 = 0 := by rw [row_apply _ _ _ hne, hr'.1, hr'.2]; simpa using hz
  dsimp only at h2
  generalize r2.row 3 B = C at *
  generalize r2.col 3 identity = U at *
  have h3 := h2.col (g := Givens.mk' (C 2 0) (C 2 1) 0 1) 0 1 (by simp) (by simp) (by decide) (mk'_unit _ _ _ _)
  have d21 : (Givens.mk' (C 2 0) (C 2 1) 0 1).col 3 C 2 1 = 0 := by
    rw [col_apply _ _ _ (by simp)]; simpa using mk'_zero _ _ _ _
  have d02 : (Givens.mk' (C 2 0) (C 2 1) 0 1).col 3 C 0 2 = 0 := by rw [col_apply _ _ _ (by simp)]; simpa using c02
  have d12 : (Givens.mk' (C 2 0) (C 2 1) 0 1).col 3 C 1 2 = 0 := by rw [col_apply _ _ _ (by simp)]; simpa using c12
  dsimp only at h3
  generalize (Givens.mk' (C 2 0) (C 2 1) 0 1).col 3 C = D at *
  generalize (Givens.mk' (C 2 0) (C 2 1) 0 1).col 3 V = V' at *
  have hs : (Givens.mk' (C 2 0) (C 2 1) 0 1).rowi = 0 ∧ (Givens.mk' (C 2 0) (C 2 1) 0 1).rowk = 1 := ⟨by simp, by simp⟩
  generalize Givens.mk' (C 2 0) (C 2 1) 0 1 = r3 at *
  have hu := unconv_unit r3 (D 0 1) (D 1 1)
  have hz := unconv_zero r3 (D 0 1) (D 1 1)
  have hs' : (r3.unconv (D 0 1) (D 1 1)).rowi = 0 ∧ (r3.unconv (D 0 1) (D 1 1)).rowk = 1 := by simpa using hs
  generalize r3.unconv (D 0 1) (D 1 1) = r4 at *
  have hne : r4.rowi ≠ r4.rowk := by rw [hs'.1, hs'.2]; decide
  have h4 := h3.row (g := r4) 0 1 (by simp [hs'.1]) (by simp [hs'.2]) (by decide) hu
  refine ⟨h4.rep, h4.rotU, h4.rotV, ?_, ?_, ?_, ?_⟩ <;> rw [row_apply _ _ _ hne, hs'.1, hs'.2]
  · simpa using hz
  · simp [d02, d12]
  · simp [d02, d12]
  · simpa using d21

/-! ## QR -/

/-- `qr`: Q is orthogonal, R upper triangular and Q R the matrix, for matrices of any size. -/
theorem qr_spec (N : Nat) (A : Mx) : let x := qr N A
    mx N x.1 * mx N x.2 = mx N A ∧ mx N x.1 * (mx N x.1)ᵀ = 1 ∧ ∀ i j, j < i → i < N → x.2 i j = 0 := by
  have key : ∀ x : Mx × Mx, x = forN N (fun (x : Mx × Mx) j =>
      forN (N - 1 - j) (fun x k => ((Givens.mk' (x.2 (N - 1 - k - 1) j) (x.2 (N - 1 - k) j) (N - 1 - k - 1) (N - 1 - k)).row N x.1,
        (Givens.mk' (x.2 (N - 1 - k - 1) j) (x.2 (N - 1 - k) j) (N - 1 - k - 1) (N - 1 - k)).row N x.2)) x) (identity, A) →
      mx N x.1 * mx N A = mx N x.2 ∧ mx N x.1 * (mx N x.1)ᵀ = 1 ∧ ∀ i j, j < N → j < i → i < N → x.2 i j = 0 := by
    intro x hx
    rw [hx]
    apply Mat.forN_inv (P := fun n (x : Mx × Mx) => mx N x.1 * mx N A = mx N x.2 ∧ mx N x.1 * (mx N x.1)ᵀ = 1 ∧
      ∀ i j, j < n → j < i → i < N → x.2 i j = 0)
    · dsimp only
      rw [identity_mat]
      exact ⟨Matrix.one_mul _, by simp, fun i j h => absurd h (Nat.not_lt_zero j)⟩
    · rintro j hj x ⟨h1, h2, h3⟩
      have inner := Mat.forN_inv (n := N - 1 - j) (s := x) (f := fun (x : Mx × Mx) k =>
          ((Givens.mk' (x.2 (N - 1 - k - 1) j) (x.2 (N - 1 - k) j) (N - 1 - k - 1) (N - 1 - k)).row N x.1,
           (Givens.mk' (x.2 (N - 1 - k - 1) j) (x.2 (N - 1 - k) j) (N - 1 - k - 1) (N - 1 - k)).row N x.2))
        (P := fun k (x : Mx × Mx) => mx N x.1 * mx N A = mx N x.2 ∧ mx N x.1 * (mx N x.1)ᵀ = 1 ∧
          (∀ i j', j' < j → j' < i → i < N → x.2 i j' = 0) ∧ ∀ i, N - 1 - k < i → i < N → x.2 i j = 0)
        ⟨h1, h2, h3, fun i h h' => by omega⟩ ?_
      · obtain ⟨g1, g2, g3, g4⟩ := inner
        refine ⟨g1, g2, fun i j' hj' hij hi => ?_⟩
        rcases Nat.lt_succ_iff_lt_or_eq.1 hj' with h | h
        · exact g3 i j' h hij hi
        · rw [h]; exact g4 i (by omega) hi
      · rintro k hk x ⟨g1, g2, g3, g4⟩
        obtain ⟨i, hi⟩ : ∃ i, i = N - 1 - k := ⟨_, rfl⟩
        simp only [← hi]
        have hij : j < i := by omega
        have hiN : i < N := by omega
        have hz := mk'_zero (x.2 (i - 1) j) (x.2 i j) (i - 1) i
        have hu := mk'_unit (x.2 (i - 1) j) (x.2 i j) (i - 1) i
        have ri : (Givens.mk' (x.2 (i - 1) j) (x.2 i j) (i - 1) i).rowi = i - 1 := by simp
        have rk : (Givens.mk' (x.2 (i - 1) j) (x.2 i j) (i - 1) i).rowk = i := by simp
        generalize Givens.mk' (x.2 (i - 1) j) (x.2 i j) (i - 1) i = g at *
        have hne : g.rowi ≠ g.rowk := by rw [ri, rk]; omega
        have hab : (⟨i - 1, by omega⟩ : Fin N) ≠ ⟨i, hiN⟩ := by intro h; have := congrArg Fin.val h; simp at this; omega
        have m1 := row_mat (n := N) (g := g) (a := ⟨i - 1, by omega⟩) (b := ⟨i, hiN⟩) ri rk hab
        refine ⟨?_, ?_, ?_, ?_⟩
        · rw [m1, m1, Matrix.mul_assoc, g1]
        · rw [m1, Matrix.transpose_mul, Matrix.mul_assoc, ← Matrix.mul_assoc (mx N x.1), g2, Matrix.one_mul]
          exact rot_orth hab hu
        · intro i' j' hj' hij' hi'
          rw [row_apply _ _ _ hne, ri, rk, if_pos (by omega)]
          split
          · rw [g3 (i - 1) j' hj' (by omega) (by omega), g3 i j' hj' (by omega) hiN]; ring
          · split
            · rw [g3 (i - 1) j' hj' (by omega) (by omega), g3 i j' hj' (by omega) hiN]; ring
            · exact g3 i' j' hj' hij' hi'
        · intro i' hlt hi'
          rw [row_apply _ _ _ hne, ri, rk, if_pos (by omega), if_neg (by omega)]
          split
          · exact hz
          · exact g4 i' (by omega) hi'
  obtain ⟨h1, h2, h3⟩ := key _ rfl
  have ht : ∀ B : Mx, mx N (transpose B) = (mx N B)ᵀ := fun B => rfl
  refine ⟨?_, ?_, fun i j hij hi => h3 i j (by omega) hij hi⟩
  · rw [qr]; dsimp only; rw [ht, ← h1, ← Matrix.mul_assoc, mul_eq_one_comm.1 h2, Matrix.one_mul]
  · rw [qr]; dsimp only; rw [ht, Matrix.transpose_transpose, mul_eq_one_comm.1 h2]

/-! ## Singular values and polar decomposition -/

/-- `qr_svd` in two dimensions: A = U diag(S) Vᵀ with rotations U and V and S₀ ≥ |S₁|. -/
theorem qrSvd2_spec (A : Mx) : let r := qrSvd2 A (Givens.of 0 1) (Givens.of 0 1)
    mx 2 A = mx 2 r.U.fill * Matrix.diagonal ![r.S0, r.S1] * (mx 2 r.V.fill)ᵀ ∧ IsRot (mx 2 r.U.fill) ∧ IsRot (mx 2 r.V.fill) ∧ |r.S1| ≤ r.S0 := by
  intro r
  obtain ⟨hu, hv, hs, a00, a01, a10, a11⟩ := qrSvd2_entries A (Givens.of 0 1) (Givens.of 0 1) rfl rfl
  obtain ⟨r1, r2, r3, r4⟩ := qrSvd2_rows A (Givens.of 0 1) (Givens.of 0 1)
  have fu := fill_mat (n := 2) (g := r.U) (a := 0) (b := 1) r1 r2 (by decide)
  have fv := fill_mat (n := 2) (g := r.V) (a := 0) (b := 1) r3 r4 (by decide)
  rw [fu, fv]
  refine ⟨?_, (rot_rot2 hu).transpose, (rot_rot2 hv).transpose, hs⟩
  rw [Matrix.transpose_transpose]
  funext i j
  rw [Matrix.mul_apply, Fin.sum_univ_two]
  simp only [Matrix.mul_diagonal, Matrix.transpose_apply]
  fin_cases i <;> fin_cases j <;> simp [mx, rot]
  · linear_combination a00
  · linear_combination a01
  · linear_combination a10
  · linear_combination a11

/-- `polar_decomposition` in two dimensions: A = R S, R a rotation and S symmetric; no rotation is closer to A than R. -/
theorem polarDecomposition2_spec (A : Mx) : let p := polarDecomposition2 A
    mx 2 A = mx 2 p.1 * mx 2 p.2 ∧ IsRot (mx 2 p.1) ∧ (mx 2 p.2)ᵀ = mx 2 p.2 ∧
    ∀ Q : Matrix (Fin 2) (Fin 2) ℝ, IsRot Q → frobSq (mx 2 A - mx 2 p.1) ≤ frobSq (mx 2 A - Q) := by
  intro p
  obtain ⟨hu, hs, ht, e00, e01, e10, e11⟩ := polar2_entries A (Givens.of 0 1) rfl rfl
  have hr := polar2_rows A (Givens.of 0 1)
  have hp : p = ((polar2 A (Givens.of 0 1)).1.fill, (polar2 A (Givens.of 0 1)).2) := rfl
  have hfill := fill_mat (n := 2) (g := (polar2 A (Givens.of 0 1)).1) (a := 0) (b := 1) hr.1 hr.2 (by decide)
  rw [hp]
  dsimp only
  rw [hfill]
  have hrot := rot_rot2 hu
  have hA : mx 2 (polar2 A (Givens.of 0 1)).2 = rot 0 1 (polar2 A (Givens.of 0 1)).1.c (polar2 A (Givens.of 0 1)).1.s * mx 2 A :=
    row_mat (n := 2) hr.1 hr.2 (by decide) A
  refine ⟨?_, hrot.transpose, ?_, ?_⟩
  · rw [hA, ← Matrix.mul_assoc, hrot.tmul, Matrix.one_mul]
  · funext i j
    rw [Matrix.transpose_apply]
    fin_cases i <;> fin_cases j <;> simp [mx] <;> [exact hs.symm; exact hs]
  · intro Q hQ
    -- a rotation is [c, s; -s, c]
    obtain ⟨c, s, hcs, q00, q01, q10, q11⟩ : ∃ c s : ℝ, c * c + s * s = 1 ∧ Q 0 0 = c ∧ Q 0 1 = s ∧ Q 1 0 = -s ∧ Q 1 1 = c := by
      have o := hQ.1
      have o00 := congrFun (congrFun o 0) 0
      have o01 := congrFun (congrFun o 0) 1
      have o11 := congrFun (congrFun o 1) 1
      rw [Matrix.mul_apply, Fin.sum_univ_two] at o00 o01 o11
      simp only [Matrix.transpose_apply, Matrix.one_apply_eq] at o00 o11
      rw [Matrix.one_apply_ne (by decide)] at o01
      simp only [Matrix.transpose_apply] at o01
      have hd := hQ.2
      rw [Matrix.det_fin_two] at hd
      exact ⟨Q 0 0, Q 0 1, o00, rfl, rfl, by linear_combination Q 1 0 * (-o00) + Q 0 0 * o01 - Q 0 1 * hd, by
        linear_combination Q 1 1 * (-o00) + Q 0 1 * o01 + Q 0 0 * hd⟩
    have hd : 0 ≤ √((A 0 0 + A 1 1) * (A 0 0 + A 1 1) + (A 1 0 - A 0 1) * (A 1 0 - A 0 1)) := Real.sqrt_nonneg _
    have hq : 0 ≤ (A 0 0 + A 1 1) * (A 0 0 + A 1 1) + (A 1 0 - A 0 1) * (A 1 0 - A 0 1) := add_nonneg (mul_self_nonneg _) (mul_self_nonneg _)
    have hsq := Real.mul_self_sqrt hq
    -- Cauchy-Schwarz
    have hle : c * (A 0 0 + A 1 1) - s * (A 1 0 - A 0 1) ≤ √((A 0 0 + A 1 1) * (A 0 0 + A 1 1) + (A 1 0 - A 0 1) * (A 1 0 - A 0 1)) := by
      apply Real.le_sqrt_of_sq_le
      have : (c * (A 0 0 + A 1 1) - s * (A 1 0 - A 0 1)) ^ 2
          = (A 0 0 + A 1 1) * (A 0 0 + A 1 1) + (A 1 0 - A 0 1) * (A 1 0 - A 0 1) - (s * (A 0 0 + A 1 1) + c * (A 1 0 - A 0 1)) ^ 2 := by
        linear_combination ((A 0 0 + A 1 1) * (A 0 0 + A 1 1) + (A 1 0 - A 0 1) * (A 1 0 - A 0 1)) * hcs
      rw [this]; linarith [sq_nonneg (s * (A 0 0 + A 1 1) + c * (A 1 0 - A 0 1))]
    rw [← ht, e00, e11] at hle
    generalize (polar2 A (Givens.of 0 1)).1 = R at *
    simp only [frobSq, Fin.sum_univ_two, Matrix.sub_apply, Matrix.transpose_apply, q00, q01, q10, q11]
    simp [mx, rot]
    nlinarith [hle, hu, hcs]

/-- What `qr_svd` promises in three dimensions: rotations U and V, values in order, only the last one can be negative; the product differs from A
by no more than the tolerance (in the Frobenius norm). -/
theorem qrSvd3_partial (eta : ℝ) (fuel : Nat) (A : Mx) (x : Sg) (h : qrSvd3 eta fuel A = some x) :
    IsRot (mx 3 x.U) ∧ IsRot (mx 3 x.V) ∧ x.S 1 ≤ x.S 0 ∧ |x.S 2| ≤ x.S 1 ∧
    frobSq (mx 3 A - mx 3 x.U * Matrix.diagonal (fun i : Fin 3 => x.S i) * (mx 3 x.V)ᵀ) ≤ tolerance eta (upperBidiagonalize A).H ^ 2 := by
  rw [qrSvd3] at h
  obtain ⟨y, hy, rfl⟩ := Option.map_eq_some_iff.1 h
  obtain ⟨g1, g2, g3⟩ := qrLoop_spec (upperBidiagonalize_good A) (upperBidiagonalize_bidiagonal A) hy
  obtain ⟨A', s1, s2, s3⟩ := finish_spec g1 g2 g3
  refine ⟨⟨s1.orthU, s1.detU⟩, ⟨s1.orthV, s1.detV⟩, s2.1, s2.2, ?_⟩
  rw [s1.rep]; exact s3

/-- The hypothesis is met: the identity needs no pass of the loop, and with a tolerance of 0 the decomposition is exact. -/
example : ∃ x, qrSvd3 0 5 (fun i j => if i = j then 1 else 0) = some x ∧
    mx 3 x.U * Matrix.diagonal (fun i : Fin 3 => x.S i) * (mx 3 x.V)ᵀ = 1 := by
  have hz : (upperBidiagonalize (fun i j => if i = j then (1 : ℝ) else 0)).H 1 2 = 0 := by
    have c0 : Givens.mk' 0 0 1 2 = ⟨1, 2, 1, 0⟩ := by simp [Givens.mk', Givens.conv, Givens.of]
    have c1 : Givens.mk' 1 0 0 1 = ⟨0, 1, 1, 0⟩ := by simp [Givens.mk', Givens.conv, Givens.of, rsqrt]
    have c2 : (Givens.of 1 2).conv 0 0 = ⟨1, 2, 1, 0⟩ := by simp [Givens.conv, Givens.of]
    have c3 : Givens.mk' 1 0 1 2 = ⟨1, 2, 1, 0⟩ := by simp [Givens.mk', Givens.conv, Givens.of, rsqrt]
    simp [upperBidiagonalize, zeroChasing, c0, row_apply, c1, c2, col_apply, c3]
  have hr : ¬ Running 0 (upperBidiagonalize (fun i j => if i = j then (1 : ℝ) else 0)).H := by
    rintro ⟨-, -, -, -, h5⟩; rw [hz, abs_zero] at h5; exact lt_irrefl _ h5
  have ht : tolerance 0 (upperBidiagonalize (fun i j => if i = j then (1 : ℝ) else 0)).H = 0 := by rw [tolerance, zero_mul]
  have hx : qrSvd3 0 5 (fun i j => if i = j then 1 else 0) = some (finish 0 (upperBidiagonalize fun i j => if i = j then (1 : ℝ) else 0)) := by
    rw [qrSvd3]
    rw [ht]
    generalize upperBidiagonalize (fun i j => if i = j then (1 : ℝ) else 0) = y at hr ⊢
    rw [qrLoop, if_neg hr]; rfl
  refine ⟨_, hx, ?_⟩
  obtain ⟨-, -, -, -, h⟩ := qrSvd3_partial _ _ _ _ hx
  rw [ht] at h
  have h0 := frobSq_zero (le_antisymm (by simpa using h) (frobSq_nonneg _))
  rw [← sub_eq_zero.1 h0]
  funext i j
  simp [mx, Matrix.one_apply, Fin.ext_iff]

/-- `polar_decomposition` in three dimensions: R is a rotation, S symmetric, and R S differs from A by no more than the tolerance; no rotation is
closer to R S than R. -/
theorem polarDecomposition3_partial (eta : ℝ) (fuel : Nat) (A R S : Mx) (h : polarDecomposition3 eta fuel A = some (R, S)) :
    IsRot (mx 3 R) ∧ (mx 3 S)ᵀ = mx 3 S ∧ frobSq (mx 3 A - mx 3 R * mx 3 S) ≤ tolerance eta (upperBidiagonalize A).H ^ 2 ∧
    ∀ Q : Matrix (Fin 3) (Fin 3) ℝ, IsRot Q → frobSq (mx 3 R * mx 3 S - mx 3 R) ≤ frobSq (mx 3 R * mx 3 S - Q) := by
  obtain ⟨x, hx, he⟩ := Option.map_eq_some_iff.1 h
  obtain ⟨hU, hV, h0, h1, hf⟩ := qrSvd3_partial _ _ _ _ hx
  have hR : mx 3 R = mx 3 x.U * (mx 3 x.V)ᵀ := by
    rw [← (Prod.mk.inj he).1]
    funext i j
    rw [Matrix.mul_apply]; exact Mat.forN_sum 3 fun k => x.U i k * x.V j k
  have hS : mx 3 S = mx 3 x.V * Matrix.diagonal (fun i : Fin 3 => x.S i) * (mx 3 x.V)ᵀ := by
    rw [← (Prod.mk.inj he).2]
    funext i j
    rw [Matrix.mul_apply]
    refine (Mat.forN_sum 3 fun k => x.V i k * x.S k * x.V j k).trans (Finset.sum_congr rfl fun k _ => ?_)
    rw [Matrix.mul_diagonal]; rfl
  have hRS : mx 3 R * mx 3 S = mx 3 x.U * Matrix.diagonal (fun i : Fin 3 => x.S i) * (mx 3 x.V)ᵀ := by
    rw [hR, hS, Matrix.mul_assoc, ← Matrix.mul_assoc (mx 3 x.V)ᵀ, ← Matrix.mul_assoc (mx 3 x.V)ᵀ, hV.tmul, Matrix.one_mul, ← Matrix.mul_assoc]
  refine ⟨?_, ?_, ?_, ?_⟩
  · rw [hR]; exact hU.mul hV.transpose
  · rw [hS, Matrix.transpose_mul, Matrix.transpose_mul, Matrix.diagonal_transpose, Matrix.transpose_transpose, Matrix.mul_assoc]
  · rw [hRS]; exact hf
  · intro Q hQ
    -- in the bases of U and V
    have e : ∀ P, frobSq (mx 3 R * mx 3 S - P) = frobSq (Matrix.diagonal (fun i : Fin 3 => x.S i) - (mx 3 x.U)ᵀ * P * mx 3 x.V) := by
      intro P
      have : mx 3 R * mx 3 S - P = mx 3 x.U * (Matrix.diagonal (fun i : Fin 3 => x.S i) - (mx 3 x.U)ᵀ * P * mx 3 x.V) * (mx 3 x.V)ᵀ := by
        rw [hRS, Matrix.mul_sub, Matrix.sub_mul]
        congr 1
        rw [← Matrix.mul_assoc, ← Matrix.mul_assoc, hU.1, Matrix.one_mul, Matrix.mul_assoc, hV.1, Matrix.mul_one]
      rw [this, frobSq_mul_right hV.1, frobSq_mul_left hU.1]
    rw [e, e, hR, ← Matrix.mul_assoc, hU.tmul, Matrix.one_mul, hV.tmul]
    have hP : IsRot ((mx 3 x.U)ᵀ * Q * mx 3 x.V) := (hU.transpose.mul hQ).mul hV
    generalize (mx 3 x.U)ᵀ * Q * mx 3 x.V = P at hP
    rw [frob_diag_sub hP, frob_diag_sub IsRot.one]
    have := trace_le hP h0 h1
    simp only [Matrix.one_apply_eq]
    linarith

/-! ## Gram-Schmidt -/

/-- `gram_schmidt` for an invertible matrix: Q is orthogonal, R upper triangular with a positive diagonal, and Q R is the matrix. -/
theorem gramSchmidt_spec (A : Mx) (hA : (mx 3 A).det ≠ 0) : let x := gramSchmidt A
    mx 3 x.1 * mx 3 x.2 = mx 3 A ∧ mx 3 x.1 * (mx 3 x.1)ᵀ = 1 ∧ (∀ i j, j < i → x.2 i j = 0) ∧ ∀ i, i < 3 → 0 < x.2 i i := by
  intro x
  obtain ⟨q1, q2, q3, r11, r12, r13, r22, r23, r33, ex, h⟩ := gramSchmidt_vectors A hA
  have hx : x = _ := ex
  rw [hx]
  obtain ⟨p1, p2, p3, n1, n2, n3, o12, o13, o23, a0, a1, a2⟩ := h
  have eQ : ∀ i : Fin 3, ∀ j : Fin 3, mx 3 (fun i j => if i < 3 then (if j = 0 then q1 i else if j = 1 then q2 i else if j = 2 then q3 i else 0) else 0) i j =
      ![q1 i, q2 i, q3 i] j := by
    intro i j; fin_cases j <;> simp [mx]
  refine ⟨?_, ?_, ?_, ?_⟩
  · funext i j
    rw [Matrix.mul_apply, Fin.sum_univ_three, eQ, eQ, eQ]
    fin_cases j
    · simpa [mx] using (a0 i i.2).symm
    · simpa [mx] using (a1 i i.2).symm
    · simpa [mx] using (a2 i i.2).symm
  · rw [mul_eq_one_comm]
    funext i j
    rw [Matrix.mul_apply, Fin.sum_univ_three]
    simp only [Matrix.transpose_apply, eQ]
    fin_cases i <;> fin_cases j <;> simp <;> linarith
  · intro i j hij
    match i, j with
    | 0, j => omega
    | 1, 0 => simp
    | 1, j + 1 => omega
    | 2, 0 => simp
    | 2, 1 => simp
    | 2, j + 2 => omega
    | i + 3, j => simp
  · intro i hi
    have : i = 0 ∨ i = 1 ∨ i = 2 := by omega
    rcases this with rfl | rfl | rfl <;> simpa

/-- The hypothesis is met. -/
example : (mx 3 fun i j => if i ≤ j then 2 else 1).det ≠ 0 := by
  rw [Matrix.det_fin_three]; norm_num [mx]

end Verif.Rot
