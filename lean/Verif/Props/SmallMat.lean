import Verif.Proof.SmallMat
import Verif.Proof.SmallMatOffset
import Mathlib.Tactic.FieldSimp
import Mathlib.Tactic.NormNum
import Mathlib.Tactic.Positivity
import Mathlib.Tactic.LinearCombination
import Mathlib.Data.Matrix.Diagonal
import Mathlib.Algebra.BigOperators.Field

/-!
Small vectors and matrices (C75): positions of the entries, algebra, determinants and inverses, against the matrices of Mathlib.
-/
namespace Verif.Mat

open Matrix

/-! ## Positions -/

/-- Indices within the extents. -/
def InRange (ns args : List Nat) : Prop := args.length = ns.length ∧ ∀ i, i < ns.length → args.getD i 0 < ns.getD i 0

/-- For every storage order, the position is a one-to-one map from the indices within the extents onto the numbers below the number of entries. -/
theorem offset_bijective {ns orders : List Nat} (ho : orders.Perm (List.range ns.length)) :
    (∀ args, InRange ns args → offset ns orders args < ns.prod) ∧
    (∀ args args', InRange ns args → InRange ns args' → offset ns orders args = offset ns orders args' → args = args') ∧
    ∀ o, o < ns.prod → ∃ args, InRange ns args ∧ offset ns orders args = o := by
  have hprod : (orders.map fun i => ns.getD i 0).prod = ns.prod := by
    rw [(ho.map _).prod_eq, prod_range_getD]
  have hmem : ∀ i, i ∈ orders ↔ i < ns.length := fun i => by rw [ho.mem_iff, List.mem_range]
  have hdig : ∀ args, InRange ns args → ∀ p ∈ orders.map (fun i => (args.getD i 0, ns.getD i 0)), p.1 < p.2 := by
    intro args h p hp
    obtain ⟨i, hi, rfl⟩ := List.mem_map.1 hp
    exact h.2 i ((hmem i).1 hi)
  have hsnd : ∀ args : List Nat, (orders.map fun i => (args.getD i 0, ns.getD i 0)).map Prod.snd = orders.map fun i => ns.getD i 0 := by
    intro args; rw [List.map_map]; rfl
  refine ⟨fun args h => ?_, fun args args' h h' e => ?_, fun o h => ?_⟩
  · rw [offset_radix ho h.1, ← hprod, ← hsnd args]
    exact radix_lt (hdig args h)
  · rw [offset_radix ho h.1, offset_radix ho h'.1] at e
    have e2 := radix_inj ((hsnd args).trans (hsnd args').symm) (hdig args h) (hdig args' h') e
    apply List.ext_getElem (h.1.trans h'.1.symm)
    intro i h1 h2
    have hi : i ∈ orders := (hmem i).2 (by rw [← h.1]; exact h1)
    have := List.map_inj_left.1 e2 i hi
    have := congrArg Prod.fst this
    simpa [List.getD_eq_getElem?_getD, List.getElem?_eq_getElem h1, List.getElem?_eq_getElem h2] using this
  · rw [← hprod] at h
    obtain ⟨D, h1, h2, h3⟩ := radix_onto _ h
    rw [List.length_map] at h1
    have hlen : orders.length = ns.length := by rw [ho.length_eq, List.length_range]
    have hnd : orders.Nodup := ho.nodup_iff.2 List.nodup_range
    have hz : orders.map (fun i => (((List.range ns.length).map fun i => D.getD (orders.idxOf i) 0).getD i 0, ns.getD i 0))
        = D.zip (orders.map fun i => ns.getD i 0) := by
      apply List.ext_getElem
      · simp [h1]
      · intro k hk1 hk2
        have hk : k < orders.length := by simpa using hk1
        have ho' : orders[k] < ns.length := (hmem _).1 (List.getElem_mem hk)
        simp only [List.getElem_map, List.getElem_zip]
        rw [List.getD_eq_getElem?_getD, List.getElem?_map, List.getElem?_range ho']
        simp only [Option.map_some, Option.getD_some, hnd.idxOf_getElem k hk]
        rw [List.getD_eq_getElem?_getD, List.getElem?_eq_getElem (by omega)]
        rfl
    refine ⟨(List.range ns.length).map fun i => D.getD (orders.idxOf i) 0, ⟨by simp, fun i hi => ?_⟩, ?_⟩
    · have hi' := (hmem i).2 hi
      have : (((List.range ns.length).map fun i => D.getD (orders.idxOf i) 0).getD i 0, ns.getD i 0) ∈ D.zip (orders.map fun i => ns.getD i 0) := by
        rw [← hz]; exact List.mem_map_of_mem hi'
      exact h2 _ this
    · rw [offset_radix ho (by simp), hz, h3]

example : [2, 0, 1].Perm (List.range [4, 5, 6].length) ∧ InRange [4, 5, 6] [3, 4, 5] ∧ offset [4, 5, 6] [2, 0, 1] [3, 4, 5] = 119 := by
  refine ⟨by decide, ⟨rfl, by decide⟩, by decide⟩

/-- The position for the default order of two indices. -/
theorem offset_two (M N i j : Nat) : offset [M, N] [0, 1] [i, j] = at2 N i j := by
  simp [offset, lookupBase, storageBase, at2, List.range_succ, List.idxOf_cons]

section Ring

variable {K : Type} [CommRing K]

/-! ## Vectors -/

theorem constant_spec (n : Nat) (v : K) : toVec n (constant n v) = fun _ => v := by
  funext i; exact fill_id (fun _ => v) _ i.2

theorem add_spec (n : Nat) (a b : Store K) : toVec n (add n a b) = toVec n a + toVec n b := by
  funext i; exact fill_id (fun i => a i + b i) _ i.2

theorem sub_spec (n : Nat) (a b : Store K) : toVec n (sub n a b) = toVec n a - toVec n b := by
  funext i; exact fill_id (fun i => a i - b i) _ i.2

theorem smul_spec (n : Nat) (a : Store K) (v : K) : toVec n (smul n a v) = v • toVec n a := by
  funext i; refine (fill_id (fun i => a i * v) _ i.2).trans ?_; exact mul_comm _ _

theorem neg_spec (n : Nat) (a : Store K) : toVec n (neg n a) = -toVec n a := by
  funext i; exact fill_id (fun i => -a i) _ i.2

theorem sum_spec (n : Nat) (a : Store K) : sum n a = ∑ i, toVec n a i := forN_sum n a

theorem prod_spec (n : Nat) (a : Store K) : prod n a = ∏ i, toVec n a i := by
  simp only [toVec, Fin.prod_univ_eq_prod_range a n, prod]
  induction n with
  | zero => rfl
  | succ n ih => rw [forN_succ, ih, Finset.prod_range_succ]

theorem dot_spec (n : Nat) (a b : Store K) : dot n a b = toVec n a ⬝ᵥ toVec n b := forN_sum n fun i => a i * b i

theorem l2NormSqr_spec (n : Nat) (a : Store K) : l2NormSqr n a = toVec n a ⬝ᵥ toVec n a := forN_sum n fun i => a i * a i

theorem cross3_spec (a b : Store K) : toVec 3 (cross3 a b) = crossProduct (toVec 3 a) (toVec 3 b) := by
  rw [cross_apply]; funext i; fin_cases i <;> rfl

theorem cross2_spec (a b : Store K) : cross2 a b = Matrix.det !![a 0, a 1; b 0, b 1] := by rw [Matrix.det_fin_two_of]; rfl

/-! ## Matrices -/

theorem identity_spec (n : Nat) : toMat n n (identity (K := K) n) = 1 := by
  funext i j
  have hz : constant (n * n) (0 : K) (at2 n i j) = 0 := fill_id (fun _ => (0 : K)) _ (at2_lt i.2 j.2)
  have hf := fill (n := n) (fun i => at2 n i i) (fun _ => (1 : K)) (constant (n * n) 0) fun i hi j hj h => (at2_inj hi hj h).1
  by_cases h : i = j
  · subst h; rw [Matrix.one_apply_eq]; exact hf.1 i i.2
  · rw [Matrix.one_apply_ne h, ← hz]
    exact hf.2 _ fun k hk e => h (by have := at2_inj hk j.2 e; exact Fin.ext (by omega))

theorem transpose_spec (M N : Nat) (a : Store K) : toMat N M (transpose M N a) = (toMat M N a)ᵀ := by
  funext j i; exact fillMatT (fun i j => a (at2 N i j)) _ i.2 j.2

theorem matMul_spec (M L N : Nat) (a b : Store K) : toMat M N (matMul M L N a b) = toMat M L a * toMat L N b := by
  funext i j
  simp only [toMat, matMul, acc L _ (fun k => a (at2 L _ k) * b (at2 N k _))]
  exact fillMat (fun i j => ∑ k : Fin L, a (at2 L i k) * b (at2 N k j)) _ i.2 j.2

theorem matVec_spec (M N : Nat) (a x : Store K) : toVec M (matVec M N a x) = toMat M N a *ᵥ toVec N x := by
  funext i
  simp only [toVec, matVec, acc N _ (fun j => a (at2 N _ j) * x j)]
  exact fill_id (fun i => ∑ j : Fin N, a (at2 N i j) * x j) _ i.2

theorem vecMat_spec (M N : Nat) (x a : Store K) : toVec N (vecMat M N x a) = toVec M x ᵥ* toMat M N a := by
  funext j
  simp only [toVec, vecMat, acc M _ (fun i => a (at2 N i _) * x i)]
  refine (fill_id (fun j => ∑ i : Fin M, a (at2 N i j) * x i) _ j.2).trans ?_
  exact Finset.sum_congr rfl fun i _ => mul_comm _ _

theorem crossMatrix_spec (v w : Store K) : toMat 3 3 (crossMatrix v) *ᵥ toVec 3 w = crossProduct (toVec 3 v) (toVec 3 w) := by
  rw [cross_apply]
  funext i
  fin_cases i <;> simp [Matrix.mulVec, dotProduct, Fin.sum_univ_three, toMat, toVec, crossMatrix, upd, at2] <;> ring

theorem trace_spec (n : Nat) (m : Store K) : trace n m = (toMat n n m).trace := forN_sum n fun i => m (at2 n i i)

theorem dyadic_spec (M N : Nat) (c r : Store K) : toMat M N (dyadic M N c r) = Matrix.vecMulVec (toVec M c) (toVec N r) := by
  funext i j; exact fillMat (fun i j => c i * r j) _ i.2 j.2

theorem diagMulR_spec (M N : Nat) (a d : Store K) : toMat M N (diagMulR M N a d) = toMat M N a * Matrix.diagonal (toVec N d) := by
  funext i j; rw [Matrix.mul_diagonal]; exact fillMat (fun i j => a (at2 N i j) * d j) _ i.2 j.2

theorem diagMulL_spec (M N : Nat) (d a : Store K) : toMat M N (diagMulL M N d a) = Matrix.diagonal (toVec M d) * toMat M N a := by
  funext i j; rw [Matrix.diagonal_mul, mul_comm]; exact fillMat (fun i j => a (at2 N i j) * d i) _ i.2 j.2

theorem row_spec (M N : Nat) (m : Store K) (i : Fin M) : toVec N (row N m i) = (toMat M N m) i := by
  funext j; exact fill_id (fun j => m (at2 N i j)) _ j.2

theorem col_spec (M N : Nat) (m : Store K) (j : Fin N) : toVec M (col M N m j) = fun i => toMat M N m i j := by
  funext i; exact fill_id (fun i => m (at2 N i j)) _ i.2

/-- Column-major order. -/
theorem flattenCol_spec (M N : Nat) (m : Store K) (i : Fin M) (j : Fin N) : flattenCol M N m (at2 M j i) = toMat M N m i j := by
  have inner : ∀ (j k : Nat) (s : Store K × Nat), forN k (fun s i => (upd s.1 s.2 (m (at2 N i j)), s.2 + 1)) s
      = (forN k (fun r i => upd r (s.2 + i) (m (at2 N i j))) s.1, s.2 + k) := by
    intro j k s
    induction k with
    | zero => rfl
    | succ k ih => rw [forN_succ, ih, forN_succ]; rfl
  have outer : ∀ k, forN k (fun s j => forN M (fun s i => (upd s.1 s.2 (m (at2 N i j)), s.2 + 1)) s) ((fun _ => 0 : Store K), 0)
      = (forN k (fun r j => forN M (fun r i => upd r (at2 M j i) (m (at2 N i j))) r) fun _ => 0, k * M) := by
    intro k
    induction k with
    | zero => simp [forN_zero]
    | succ k ih => rw [forN_succ, ih, inner, forN_succ, Nat.succ_mul]; rfl
  rw [flattenCol, outer]
  exact fillMat (fun j i => m (at2 N i j)) _ j.2 i.2

/-- Row-major order: the storage itself. -/
theorem flattenRow_spec (M N : Nat) (m : Store K) (i : Fin M) (j : Fin N) : flattenRow M N m (at2 N i j) = toMat M N m i j := by
  have inner : ∀ (i k : Nat) (s : Store K × Nat), forN k (fun s j => (upd s.1 s.2 (m (at2 N i j)), s.2 + 1)) s
      = (forN k (fun r j => upd r (s.2 + j) (m (at2 N i j))) s.1, s.2 + k) := by
    intro i k s
    induction k with
    | zero => rfl
    | succ k ih => rw [forN_succ, ih, forN_succ]; rfl
  have outer : ∀ k, forN k (fun s i => forN N (fun s j => (upd s.1 s.2 (m (at2 N i j)), s.2 + 1)) s) ((fun _ => 0 : Store K), 0)
      = (forN k (fun r i => forN N (fun r j => upd r (at2 N i j) (m (at2 N i j))) r) fun _ => 0, k * N) := by
    intro k
    induction k with
    | zero => simp [forN_zero]
    | succ k ih => rw [forN_succ, ih, inner, forN_succ, Nat.succ_mul]; rfl
  rw [flattenRow, outer]
  exact fillMat (fun i j => m (at2 N i j)) _ i.2 j.2

/-- The affine map: the first rows of the product with the vector extended by 1. -/
theorem affine_spec (M N : Nat) (a x : Store K) :
    toVec M (affine M N a x) = fun i => (toMat (M + 1) (N + 1) a *ᵥ Fin.snoc (toVec N x) 1) i.castSucc := by
  funext i
  simp only [toVec, affine, acc (N + 1) _ (fun j => if j = N then a (at2 (N + 1) _ j) else a (at2 (N + 1) _ j) * x j)]
  refine (fill_id (fun i => ∑ j : Fin (N + 1), if (j : Nat) = N then a (at2 (N + 1) i j) else a (at2 (N + 1) i j) * x j) _ i.2).trans ?_
  simp only [Matrix.mulVec, dotProduct, Fin.sum_univ_castSucc, Fin.snoc_castSucc, Fin.snoc_last, toMat, Fin.val_castSucc, Fin.val_last, if_true, mul_one]
  congr 1
  exact Finset.sum_congr rfl fun j _ => if_neg (by omega)

theorem affineT_spec (M N : Nat) (x a : Store K) :
    toVec N (affineT M N x a) = fun j => ((Fin.snoc (toVec M x) 1 : Fin (M + 1) → K) ᵥ* toMat (M + 1) (N + 1) a) j.castSucc := by
  funext j
  simp only [toVec, affineT, acc (M + 1) _ (fun i => if i = M then a (at2 (N + 1) i _) else a (at2 (N + 1) i _) * x i)]
  refine (fill_id (fun j => ∑ i : Fin (M + 1), if (i : Nat) = M then a (at2 (N + 1) i j) else a (at2 (N + 1) i j) * x i) _ j.2).trans ?_
  simp only [Matrix.vecMul, dotProduct, Fin.sum_univ_castSucc, Fin.snoc_castSucc, Fin.snoc_last, toMat, Fin.val_castSucc, Fin.val_last, if_true, one_mul]
  congr 1
  exact Finset.sum_congr rfl fun i _ => by rw [if_neg (by omega), mul_comm]; rfl

/-! ## Determinants and inverses -/

/-- The determinant, for matrices of any size. -/
theorem determinant_spec (n : Nat) (a : Store K) : determinant n a = (toMat n n a).det := by
  match n with
  | 0 => simp [determinant]
  | 1 => simp [determinant, Matrix.det_fin_one, toMat]
  | 2 => simp [determinant, Matrix.det_fin_two, toMat]; ring
  | 3 => simp [determinant, Matrix.det_fin_three, toMat]; ring
  | 4 =>
    have sub : ∀ (i : Fin 4) (r c : Fin 3), (toMat 4 4 a).submatrix Fin.succ i.succAbove r c
        = a (4 * ((r : Nat) + 1) + (if (c : Nat) < i then (c : Nat) else (c : Nat) + 1)) := by
      intro i r c
      simp only [Matrix.submatrix_apply, toMat, at2, Fin.val_succ, Fin.succAbove, Fin.lt_def, Fin.val_castSucc]
      split <;> congr 1 <;> simp <;> ring
    rw [Matrix.det_succ_row_zero]
    simp only [Fin.sum_univ_four, Matrix.det_fin_three, sub]
    simp [toMat, determinant, det2, det3, at2]
    ring
  | n + 5 =>
    have hdet := determinant_spec (n + 4)
    have loop : ∀ k, k ≤ n + 5 → (forN k (fun (s : K × Store K) j =>
        let m := minor (n + 4) j a s.2
        (s.1 + (if j % 2 = 1 then -1 else 1) * a (at2 (n + 5) 0 j) * determinant (n + 4) m, m)) (0, fun _ => 0)).1
        = ∑ j ∈ Finset.range k, (-1) ^ j * a (at2 (n + 5) 0 j)
          * Matrix.det (fun (r c : Fin (n + 4)) => a (at2 (n + 5) (r + 1) (if (c : Nat) < j then c else c + 1))) := by
      intro k
      induction k with
      | zero => intro _; rfl
      | succ k ih =>
        intro hk
        rw [forN_succ, Finset.sum_range_succ, ← ih (by omega)]
        generalize forN k _ ((0, fun _ => 0) : K × Store K) = s
        show s.1 + _ = _
        congr 1
        have hm : toMat (n + 4) (n + 4) (minor (n + 4) k a s.2)
            = fun (r c : Fin (n + 4)) => a (at2 (n + 5) (r + 1) (if (c : Nat) < k then c else c + 1)) := by
          funext r c; exact minor_spec (n + 4) k (by omega) a s.2 r.2 c.2
        have hs : (if k % 2 = 1 then (-1 : K) else 1) = (-1) ^ k := by
          rcases Nat.even_or_odd k with h | h
          · rw [h.neg_one_pow, if_neg (by rw [Nat.even_iff.1 h]; decide)]
          · rw [h.neg_one_pow, if_pos (Nat.odd_iff.1 h)]
        rw [hdet, hm, hs]
    rw [determinant, loop (n + 5) (Nat.le_refl _), Matrix.det_succ_row_zero,
      ← Fin.sum_univ_eq_sum_range (fun j => (-1) ^ j * a (at2 (n + 5) 0 j)
          * Matrix.det (fun (r c : Fin (n + 4)) => a (at2 (n + 5) (r + 1) (if (c : Nat) < j then c else c + 1))))]
    refine Finset.sum_congr rfl fun j _ => ?_
    congr 2
    funext r c
    simp only [Matrix.submatrix_apply, toMat, Fin.val_succ, Fin.succAbove, Fin.lt_def, Fin.val_castSucc]
    split <;> rfl

/-! ## MatrixUtils -/

theorem matDiagMatT_spec (a d b : Store K) :
    toMatC 2 (matDiagMatT2 a d b) = toMatC 2 a * Matrix.diagonal (toVec 2 d) * (toMatC 2 b)ᵀ ∧
    toMatC 3 (matDiagMatT3 a d b) = toMatC 3 a * Matrix.diagonal (toVec 3 d) * (toMatC 3 b)ᵀ := by
  constructor <;> funext i j
  · rw [Matrix.mul_apply]; simp only [Matrix.mul_diagonal, Fin.sum_univ_two]; fin_cases i <;> fin_cases j <;> rfl
  · rw [Matrix.mul_apply]; simp only [Matrix.mul_diagonal, Fin.sum_univ_three]; fin_cases i <;> fin_cases j <;> rfl

theorem matTVec_spec (m v : Store K) : toVec 3 (matTVec3 m v) = (toMatC 3 m)ᵀ *ᵥ toVec 3 v := by
  funext i; simp only [Matrix.mulVec, dotProduct, Fin.sum_univ_three]; fin_cases i <;> rfl

theorem matrixDet_spec (x : Store K) : matrixDet2 x = (toMatC 2 x).det ∧ matrixDet3 x = (toMatC 3 x).det := by
  constructor
  · simp [matrixDet2, Matrix.det_fin_two, toMatC]; ring
  · simp [matrixDet3, Matrix.det_fin_three, toMatC]; ring

theorem matrixTranspose_spec (x : Store K) :
    toMatC 2 (matrixTranspose2 x) = (toMatC 2 x)ᵀ ∧ toMatC 3 (matrixTranspose3 x) = (toMatC 3 x)ᵀ := by
  constructor <;> funext i j <;> fin_cases i <;> fin_cases j <;> rfl

theorem matrixTrace_spec (x : Store K) : matrixTrace2 x = (toMatC 2 x).trace ∧ matrixTrace3 x = (toMatC 3 x).trace := by
  constructor
  · rw [Matrix.trace, Fin.sum_univ_two]; rfl
  · rw [Matrix.trace, Fin.sum_univ_three]; rfl

theorem matrixMul_spec (a b : Store K) :
    toMatC 2 (matrixMul2 a b) = toMatC 2 a * toMatC 2 b ∧ toMatC 3 (matrixMul3 a b) = toMatC 3 a * toMatC 3 b := by
  constructor <;> funext i j
  · rw [Matrix.mul_apply, Fin.sum_univ_two]; fin_cases i <;> fin_cases j <;> rfl
  · rw [Matrix.mul_apply, Fin.sum_univ_three]; fin_cases i <;> fin_cases j <;> rfl

theorem matrixDiag_spec (a d : Store K) :
    toMatC 2 (matrixDiag2 a d) = toMatC 2 a * Matrix.diagonal (toVec 2 d) ∧
    toMatC 3 (matrixDiag3 a d) = toMatC 3 a * Matrix.diagonal (toVec 3 d) := by
  constructor <;> funext i j <;> rw [Matrix.mul_diagonal] <;> fin_cases i <;> fin_cases j <;> rfl

theorem matrixTMul_spec (a b : Store K) :
    toMatC 2 (matrixTMul2 a b) = (toMatC 2 a)ᵀ * toMatC 2 b ∧ toMatC 3 (matrixTMul3 a b) = (toMatC 3 a)ᵀ * toMatC 3 b := by
  constructor <;> funext i j
  · rw [Matrix.mul_apply, Fin.sum_univ_two]; fin_cases i <;> fin_cases j <;> rfl
  · rw [Matrix.mul_apply, Fin.sum_univ_three]; fin_cases i <;> fin_cases j <;> rfl

theorem matrixMulT_spec (a b : Store K) :
    toMatC 2 (matrixMulT2 a b) = toMatC 2 a * (toMatC 2 b)ᵀ ∧ toMatC 3 (matrixMulT3 a b) = toMatC 3 a * (toMatC 3 b)ᵀ ∧
    toMatC 3 (matrixMulSelfT3 a) = toMatC 3 a * (toMatC 3 a)ᵀ := by
  refine ⟨?_, ?_, ?_⟩ <;> funext i j
  · rw [Matrix.mul_apply, Fin.sum_univ_two]; fin_cases i <;> fin_cases j <;> rfl
  · rw [Matrix.mul_apply, Fin.sum_univ_three]; fin_cases i <;> fin_cases j <;> rfl
  · rw [Matrix.mul_apply, Fin.sum_univ_three]; fin_cases i <;> fin_cases j <;> rfl

theorem matrixVec_spec (x v : Store K) :
    toVec 2 (matrixVec2 x v) = toMatC 2 x *ᵥ toVec 2 v ∧ toVec 3 (matrixVec3 x v) = toMatC 3 x *ᵥ toVec 3 v := by
  constructor <;> funext i
  · simp only [Matrix.mulVec, dotProduct, Fin.sum_univ_two]; fin_cases i <;> rfl
  · simp only [Matrix.mulVec, dotProduct, Fin.sum_univ_three]; fin_cases i <;> rfl

theorem vectorMat_spec (v x : Store K) :
    toVec 2 (vectorMat2 v x) = toVec 2 v ᵥ* toMatC 2 x ∧ toVec 3 (vectorMat3 v x) = toVec 3 v ᵥ* toMatC 3 x := by
  constructor <;> funext i
  · simp only [Matrix.vecMul, dotProduct, Fin.sum_univ_two, mul_comm (toVec 2 v _)]; fin_cases i <;> rfl
  · simp only [Matrix.vecMul, dotProduct, Fin.sum_univ_three, mul_comm (toVec 3 v _)]; fin_cases i <;> rfl

/-- `matrixCofactor2d` writes the matrix of the cofactors, the transpose of the adjugate; `matrixCofactor3d` the adjugate itself. -/
theorem matrixCofactor_spec (x : Store K) :
    toMatC 2 (matrixCofactor2 x) = (toMatC 2 x).adjugateᵀ ∧ toMatC 3 (matrixCofactor3 x) = (toMatC 3 x).adjugate := by
  constructor
  · rw [Matrix.adjugate_fin_two]
    funext i j; fin_cases i <;> fin_cases j <;> simp [toMatC, matrixCofactor2, write]
  · rw [Matrix.adjugate_fin_three]
    funext i j; fin_cases i <;> fin_cases j <;> simp [toMatC, matrixCofactor3, write] <;> ring

/-- So `matrixCofactor3d` does not write the cofactors. -/
theorem matrixCofactor3_violated :
    matrixCofactor3 (write [1, 0, 0, 1, 1, 0, 0, 0, 1] : Store ℚ) 1 = 0 ∧ matrixCofactor3 (write [1, 0, 0, 1, 1, 0, 0, 0, 1] : Store ℚ) 3 = -1 ∧
    (toMatC 3 (write [1, 0, 0, 1, 1, 0, 0, 0, 1] : Store ℚ)).adjugateᵀ 1 0 = -1 := by
  refine ⟨by decide +kernel, by decide +kernel, ?_⟩
  rw [← (matrixCofactor_spec _).2]; decide +kernel

/-- `vec_crossMul_vec_3D` adds where the cross product subtracts: the product of a vector with itself is not 0. -/
theorem crossMul3_violated : crossMul3 (write [1, 1, 0] : Store ℚ) (write [1, 1, 0]) 2 = 2 ∧
    crossProduct (toVec 3 (write [1, 1, 0] : Store ℚ)) (toVec 3 (write [1, 1, 0])) 2 = 0 := by
  refine ⟨by decide +kernel, ?_⟩
  rw [← cross3_spec]; decide +kernel

end Ring

section Field

variable {K : Type} [Field K]

theorem sdiv_spec (n : Nat) (a : Store K) (v : K) : toVec n (sdiv n a v) = v⁻¹ • toVec n a := by
  funext i; refine (fill_id (fun i => a i / v) _ i.2).trans ?_
  rw [div_eq_mul_inv, mul_comm]; rfl

/-- The deviatoric part: the vector without its mean, so that the components add up to 0. -/
theorem deviatoric_spec (n : Nat) (a : Store K) (hn : (n : K) ≠ 0) :
    (toVec n (deviatoric n a) = fun i => toVec n a i - (∑ j, toVec n a j) / n) ∧ sum n (deviatoric n a) = 0 := by
  have h : toVec n (deviatoric n a) = fun i => toVec n a i - (∑ j, toVec n a j) / n := by
    funext i
    refine (fill_id (fun i => a i + -sum n a / n) _ i.2).trans ?_
    rw [sum_spec, neg_div, ← sub_eq_add_neg]; rfl
  refine ⟨h, ?_⟩
  rw [sum_spec, h, Finset.sum_sub_distrib, Finset.sum_const, Finset.card_univ, Fintype.card_fin, nsmul_eq_mul]
  field_simp
  ring

theorem matrixDeviatoric3_spec (x : Store K) :
    toMatC 3 (matrixDeviatoric3 x) = toMatC 3 x - ((toMatC 3 x).trace / 3) • (1 : Matrix (Fin 3) (Fin 3) K) := by
  rw [Matrix.trace, Fin.sum_univ_three]
  funext i j
  fin_cases i <;> fin_cases j <;> simp [toMatC, matrixDeviatoric3, write, Matrix.diag]

theorem inverse1_spec (a : Store K) (h : (toMat 1 1 a).det ≠ 0) : toMat 1 1 (inverse1 a) * toMat 1 1 a = 1 ∧ toMat 1 1 a * toMat 1 1 (inverse1 a) = 1 := by
  rw [← determinant_spec] at h
  simp only [determinant] at h
  constructor <;> funext i j <;> fin_cases i <;> fin_cases j <;> simp [Matrix.mul_apply, toMat, inverse1, upd, at2] <;> [exact inv_mul_cancel₀ h; exact mul_inv_cancel₀ h]

theorem inverse2_spec (a : Store K) (h : (toMat 2 2 a).det ≠ 0) : toMat 2 2 (inverse2 a) * toMat 2 2 a = 1 ∧ toMat 2 2 a * toMat 2 2 (inverse2 a) = 1 := by
  rw [← determinant_spec] at h
  constructor <;> funext i j <;> fin_cases i <;> fin_cases j <;>
    simp [Matrix.mul_apply, Fin.sum_univ_two, toMat, inverse2, upd, at2] <;> field_simp <;> simp [determinant, at2] <;> ring

theorem inverse3_spec (a : Store K) (h : (toMat 3 3 a).det ≠ 0) : toMat 3 3 (inverse3 a) * toMat 3 3 a = 1 ∧ toMat 3 3 a * toMat 3 3 (inverse3 a) = 1 := by
  rw [← determinant_spec] at h
  have e : cofactor3 0 0 a * a 0 + cofactor3 1 0 a * a 3 + cofactor3 2 0 a * a 6 = determinant 3 a := by
    simp [cofactor3, determinant, at2]; ring
  constructor <;> funext i j <;> fin_cases i <;> fin_cases j <;>
    simp [Matrix.mul_apply, Fin.sum_univ_three, toMat, inverse3, upd, at2, e] <;> field_simp <;> simp [determinant, cofactor3, at2] <;> ring

/-- The matrix of `inverse` for 4 rows before the division is the adjugate. -/
theorem adjugate4_spec (a : Store K) : toMat 4 4 (adjugate4 a) * toMat 4 4 a = determinant 4 a • (1 : Matrix (Fin 4) (Fin 4) K) := by
  funext i j
  fin_cases i <;> fin_cases j <;>
    simp [Matrix.mul_apply, Fin.sum_univ_four, toMat, adjugate4, upd, at2, cofactor4, det3', determinant, det2, det3, Matrix.smul_apply] <;> ring

theorem inverse4_spec (a : Store K) (h : (toMat 4 4 a).det ≠ 0) : toMat 4 4 (inverse4 a) * toMat 4 4 a = 1 ∧ toMat 4 4 a * toMat 4 4 (inverse4 a) = 1 := by
  rw [← determinant_spec] at h
  have e : a (at2 4 0 0) * adjugate4 a (at2 4 0 0) + a (at2 4 1 0) * adjugate4 a (at2 4 0 1) + a (at2 4 2 0) * adjugate4 a (at2 4 0 2)
      + a (at2 4 3 0) * adjugate4 a (at2 4 0 3) = determinant 4 a := by
    have := congrFun (congrFun (adjugate4_spec a) 0) 0
    rw [Matrix.mul_apply, Fin.sum_univ_four] at this
    simp only [Matrix.smul_apply, Matrix.one_apply_eq, smul_eq_mul, mul_one] at this
    rw [← this]; simp only [toMat]
    show _ = adjugate4 a (at2 4 0 0) * a (at2 4 0 0) + adjugate4 a (at2 4 0 1) * a (at2 4 1 0) + adjugate4 a (at2 4 0 2) * a (at2 4 2 0)
      + adjugate4 a (at2 4 0 3) * a (at2 4 3 0)
    ring
  have hi : toMat 4 4 (inverse4 a) = (determinant 4 a)⁻¹ • toMat 4 4 (adjugate4 a) := by
    funext i j
    have hlt : at2 4 i j < 16 := at2_lt (M := 4) i.2 j.2
    have := congrFun (sdiv_spec 16 (adjugate4 a) (determinant 4 a)) ⟨at2 4 i j, hlt⟩
    simp only [toMat, inverse4, e]
    exact this
  have h1 : toMat 4 4 (inverse4 a) * toMat 4 4 a = 1 := by
    rw [hi, Matrix.smul_mul, adjugate4_spec, smul_smul, inv_mul_cancel₀ h, one_smul]
  exact ⟨h1, mul_eq_one_comm.1 h1⟩

example : (toMat 3 3 (write [2, 1, 0, 0, 1, 0, 1, 0, 3] : Store ℚ)).det ≠ 0 := by rw [← determinant_spec]; decide +kernel

end Field

section Ordered

set_option linter.unusedSectionVars false

variable {K : Type} [Field K] [LinearOrder K] [IsStrictOrderedRing K]

/-- The maximum is attained and an upper bound. -/
theorem max_spec (n : Nat) (hn : 0 < n) (a : Store K) : (∃ i, i < n ∧ max n a = a i) ∧ ∀ i, i < n → a i ≤ max n a := by
  obtain ⟨k, rfl⟩ : ∃ k, n = k + 1 := ⟨n - 1, by omega⟩
  rw [show max (k + 1) a = forN k (fun res i => if a (i + 1) > res then a (i + 1) else res) (a 0) from rfl]
  clear hn
  induction k with
  | zero => exact ⟨⟨0, by omega, rfl⟩, fun i hi => by rw [show i = 0 by omega]; exact le_refl _⟩
  | succ k ih =>
    rw [forN_succ]
    obtain ⟨⟨j, hj, hv⟩, hb⟩ := ih
    split
    · rename_i h
      exact ⟨⟨k + 1, by omega, rfl⟩, fun i hi => by
        rcases Nat.lt_or_ge i (k + 1) with h' | h'
        · exact (hb i h').trans h.le
        · rw [show i = k + 1 by omega]⟩
    · rename_i h
      exact ⟨⟨j, by omega, hv⟩, fun i hi => by
        rcases Nat.lt_or_ge i (k + 1) with h' | h'
        · exact hb i h'
        · rw [show i = k + 1 by omega]; exact not_lt.1 h⟩

theorem min_spec (n : Nat) (hn : 0 < n) (a : Store K) : (∃ i, i < n ∧ min n a = a i) ∧ ∀ i, i < n → min n a ≤ a i := by
  obtain ⟨k, rfl⟩ : ∃ k, n = k + 1 := ⟨n - 1, by omega⟩
  rw [show min (k + 1) a = forN k (fun res i => if a (i + 1) < res then a (i + 1) else res) (a 0) from rfl]
  clear hn
  induction k with
  | zero => exact ⟨⟨0, by omega, rfl⟩, fun i hi => by rw [show i = 0 by omega]; exact le_refl _⟩
  | succ k ih =>
    rw [forN_succ]
    obtain ⟨⟨j, hj, hv⟩, hb⟩ := ih
    split
    · rename_i h
      exact ⟨⟨k + 1, by omega, rfl⟩, fun i hi => by
        rcases Nat.lt_or_ge i (k + 1) with h' | h'
        · exact h.le.trans (hb i h')
        · rw [show i = k + 1 by omega]⟩
    · rename_i h
      exact ⟨⟨j, by omega, hv⟩, fun i hi => by
        rcases Nat.lt_or_ge i (k + 1) with h' | h'
        · exact hb i h'
        · rw [show i = k + 1 by omega]; exact not_lt.1 h⟩

theorem abs_spec (n : Nat) (a : Store K) (i : Nat) (hi : i < n) : abs n a i = |a i| := by
  refine (fill_id (fun i => if a i > 0 then a i else -a i) _ hi).trans ?_
  split
  · rename_i h; rw [abs_of_pos h]
  · rename_i h; rw [abs_of_nonpos (not_lt.1 h)]

/-- The infinity norm: the largest absolute value. -/
theorem infNorm_spec (n : Nat) (hn : 0 < n) (a : Store K) : (∃ i, i < n ∧ infNorm n a = |a i|) ∧ ∀ i, i < n → |a i| ≤ infNorm n a := by
  obtain ⟨⟨j, hj, hv⟩, hb⟩ := max_spec n hn (abs n a)
  exact ⟨⟨j, hj, by rw [infNorm, hv, abs_spec n a j hj]⟩, fun i hi => by rw [← abs_spec n a i hi]; exact hb i hi⟩

/-- `infNormSqr` is the square of the infinity norm. -/
theorem infNormSqr_spec (n : Nat) (hn : 0 < n) (a : Store K) : infNormSqr n a = infNorm n a ^ 2 := by
  have key : ∀ n, (∀ i, i < n → a i * a i ≤ infNormSqr n a) ∧ (infNormSqr n a = 0 ∨ ∃ i, i < n ∧ infNormSqr n a = a i * a i) := by
    intro n
    induction n with
    | zero => exact ⟨fun i hi => by omega, Or.inl rfl⟩
    | succ n ih =>
      obtain ⟨h1, h2⟩ := ih
      rw [infNormSqr, forN_succ, ← infNormSqr]
      split
      · rename_i h
        exact ⟨fun i hi => by
          rcases Nat.lt_or_ge i n with h' | h'
          · exact (h1 i h').trans h.le
          · rw [show i = n by omega], Or.inr ⟨n, by omega, rfl⟩⟩
      · rename_i h
        refine ⟨fun i hi => by
          rcases Nat.lt_or_ge i n with h' | h'
          · exact h1 i h'
          · rw [show i = n by omega]; exact not_lt.1 h, ?_⟩
        rcases h2 with h2 | ⟨j, hj, h2⟩
        · exact Or.inl h2
        · exact Or.inr ⟨j, by omega, h2⟩
  obtain ⟨⟨j, hj, hv⟩, hb⟩ := infNorm_spec n hn a
  obtain ⟨h1, h2⟩ := key n
  apply le_antisymm
  · rcases h2 with h2 | ⟨i, hi, h2⟩
    · rw [h2]; exact sq_nonneg _
    · rw [h2, ← abs_mul_abs_self, ← pow_two]; exact pow_le_pow_left₀ (abs_nonneg _) (hb i hi) 2
  · rw [hv, sq_abs, pow_two]; exact h1 j hj

/-- The orthogonal vector in three dimensions: orthogonal, and 0 only for 0. -/
theorem orthogonal3_spec (a : Store K) : toVec 3 a ⬝ᵥ toVec 3 (orthogonal3 a) = 0 ∧ (toVec 3 (orthogonal3 a) = 0 → toVec 3 a = 0) := by
  have hcross : ∀ r : Store K, orthogonal3 a = cross3 a r → toVec 3 a ⬝ᵥ toVec 3 (orthogonal3 a) = 0 := by
    intro r h; rw [h, cross3_spec]; exact dot_self_cross _ _
  have hz : ∀ k : Nat, k < 3 → constant 3 (0 : K) k = 0 := fun k hk => fill_id (fun _ => (0 : K)) _ hk
  refine ⟨?_, ?_⟩
  · exact hcross _ rfl
  · intro h
    have h0 := congrFun h 0
    have h1 := congrFun h 1
    have h2 := congrFun h 2
    simp only [toVec, orthogonal3, cross3, Pi.zero_apply] at h0 h1 h2
    have all0 : a 0 = 0 → a 1 = 0 → a 2 = 0 → toVec 3 a = 0 := by
      intro e0 e1 e2; funext i; fin_cases i <;> assumption
    by_cases hxy : |a 0| < |a 1|
    · by_cases hxz : |a 0| < |a 2|
      · simp [hxy, hxz, hz, upd] at h0 h1 h2
        rw [h2, abs_zero] at hxy
        exact absurd hxy (not_lt.2 (abs_nonneg _))
      · simp [hxy, hxz, hz, upd] at h0 h1 h2
        rw [h0, abs_zero] at hxy
        exact absurd hxy (not_lt.2 (abs_nonneg _))
    · by_cases hyz : |a 1| < |a 2|
      · simp [hxy, hyz, hz, upd] at h0 h1 h2
        rw [h0, abs_zero] at hyz
        exact absurd hyz (not_lt.2 (abs_nonneg _))
      · simp [hxy, hyz, hz, upd] at h0 h1 h2
        refine all0 h1 h0 ?_
        rw [h0, abs_zero] at hyz
        exact abs_eq_zero.1 (le_antisymm (not_lt.1 hyz) (abs_nonneg _))

/-- Parallel vectors are recognized ... -/
theorem parallel_partial {eps : K} (he : 0 ≤ eps) (a b : Store K) (h : crossProduct (toVec 3 a) (toVec 3 b) = 0) : parallel eps a b = true := by
  have h0 : cross3 a b 0 = 0 := by
    have := congrFun (cross3_spec a b) 0
    rw [h] at this; exact this
  simp [parallel, nearZero, h0, he, List.range_succ]

/-- ... but so are all vectors whose cross product has no first component, such as two axes. -/
theorem parallel_violated (eps : K) (he : 0 ≤ eps) : parallel eps (write [1, 0, 0]) (write [0, 1, 0]) = true ∧
    crossProduct (toVec 3 (write [1, 0, 0] : Store K)) (toVec 3 (write [0, 1, 0])) 2 = 1 := by
  constructor
  · simp [parallel, nearZero, he, List.range_succ, cross3, upd, write]
  · rw [cross_apply]; simp [toVec, write]

end Ordered

/-- The length. -/
theorem length_spec (n : Nat) (a : Store ℝ) : 0 ≤ length n a ∧ length n a ^ 2 = ∑ i, toVec n a i ^ 2 := by
  refine ⟨Real.sqrt_nonneg _, ?_⟩
  have hs : l2NormSqr n a = ∑ i, toVec n a i ^ 2 := by
    rw [l2NormSqr_spec]; exact Finset.sum_congr rfl fun i _ => (pow_two _).symm
  rw [length, Real.sq_sqrt (by rw [hs]; exact Finset.sum_nonneg fun i _ => sq_nonneg _), hs]

/-- The normalized vector has length 1 and the same direction. -/
theorem normalized_spec (n : Nat) (a : Store ℝ) (h : toVec n a ≠ 0) :
    length n (normalized n a) = 1 ∧ toVec n a = length n a • toVec n (normalized n a) ∧ 0 < length n a := by
  obtain ⟨h0, hs⟩ := length_spec n a
  have hp : 0 < length n a := by
    refine lt_of_le_of_ne h0 fun e => h ?_
    rw [← e, zero_pow (by norm_num)] at hs
    funext i
    have := (Finset.sum_eq_zero_iff_of_nonneg (fun i _ => sq_nonneg (toVec n a i))).1 hs.symm i (Finset.mem_univ i)
    exact pow_eq_zero_iff (two_ne_zero) |>.1 this
  have hv : ∀ i : Fin n, toVec n (normalized n a) i = toVec n a i / length n a := fun i => fill_id (fun i => a i / length n a) _ i.2
  refine ⟨?_, ?_, hp⟩
  · obtain ⟨g0, gs⟩ := length_spec n (normalized n a)
    have : length n (normalized n a) ^ 2 = 1 := by
      rw [gs]
      simp only [hv, div_pow]
      rw [← Finset.sum_div, ← hs, div_self (by positivity)]
    nlinarith [this, g0]
  · funext i
    rw [Pi.smul_apply, hv, smul_eq_mul]
    field_simp

/-- The orthogonal vector in two dimensions: orthogonal, of length 1. -/
theorem orthogonal2_spec (a : Store ℝ) (h : toVec 2 a ≠ 0) : toVec 2 a ⬝ᵥ toVec 2 (orthogonal2 a) = 0 ∧ length 2 (orthogonal2 a) = 1 := by
  have hr : toVec 2 (upd (upd (fun _ => 0) 0 (-a 1)) 1 (a 0)) ≠ 0 := by
    intro e
    have e0 := congrFun e 0
    have e1 := congrFun e 1
    simp [toVec, upd] at e0 e1
    exact h (by funext i; fin_cases i <;> assumption)
  obtain ⟨h1, h2, h3⟩ := normalized_spec 2 _ hr
  refine ⟨?_, h1⟩
  have e0 := congrFun h2 0
  have e1 := congrFun h2 1
  simp only [Pi.smul_apply, smul_eq_mul] at e0 e1
  have hv0 : toVec 2 (upd (upd (fun _ => 0) 0 (-a 1)) 1 (a 0)) 0 = -a 1 := by simp [toVec, upd]
  have hv1 : toVec 2 (upd (upd (fun _ => 0) 0 (-a 1)) 1 (a 0)) 1 = a 0 := by simp [toVec, upd]
  rw [hv0] at e0
  rw [hv1] at e1
  rw [dotProduct, Fin.sum_univ_two]
  have ex : toVec 2 a 0 = a 0 := rfl
  have ey : toVec 2 a 1 = a 1 := rfl
  rw [ex, ey]
  show a 0 * toVec 2 (normalized 2 _) 0 + a 1 * toVec 2 (normalized 2 _) 1 = 0
  have h3' := h3.ne'
  apply mul_left_cancel₀ h3'
  rw [mul_zero]
  linear_combination (-a 0) * e0 - a 1 * e1

/-! ## Coordinates -/

/-- `unpack_coord`: the block is the quotient rounded down, the position in the block is not negative. -/
theorem unpackCoord_spec {id side : Int} (hs : 0 < side) : unpackCoord id side = (id / side, id % side) := by
  have key : (id + (if id < 0 then 1 - side else 0)).tdiv side = id / side := by
    by_cases h : id < 0
    · rw [if_pos h]
      have hneg : id + (1 - side) = -(side - 1 - id) := by ring
      rw [hneg, Int.neg_tdiv, Int.tdiv_eq_ediv_of_nonneg (by omega)]
      have hm := Int.emod_nonneg id hs.ne'
      have hl := Int.emod_lt_of_pos id hs
      have he := Int.mul_ediv_add_emod id side
      have : (side - 1 - id) / side = -(id / side) := by
        refine ((Int.ediv_emod_unique (r := side - 1 - id % side) hs).2 ⟨?_, by omega, by omega⟩).1
        linear_combination -he
      rw [this, neg_neg]
    · rw [if_neg h, add_zero, Int.tdiv_eq_ediv_of_nonneg (not_lt.1 h)]
  rw [unpackCoord, key]
  have := Int.mul_ediv_add_emod id side
  rw [Prod.mk.injEq]; exact ⟨rfl, by linarith⟩

example : unpackCoord (-9) 4 = (-3, 3) := by decide

/-- `linear_to_coord`: the digits of the offset, the most significant first. -/
theorem linearToCoord_spec (dim o side : Nat) (h : o < side ^ dim) :
    (∀ d, d < dim → linearToCoord dim o side d < side) ∧ ∑ d : Fin dim, linearToCoord dim o side d * side ^ (dim - 1 - d) = o := by
  have hs : 0 < side ∨ dim = 0 := by
    rcases Nat.eq_zero_or_pos side with h0 | h0
    · right
      by_contra hd
      rw [h0, zero_pow hd] at h; omega
    · exact Or.inl h0
  have gen : ∀ k o (ret : Store Nat), o < side ^ k → (∀ d, d < k → ret d = 0) →
      (∀ d, k ≤ d → linearToCoordFrom side k o ret d = ret d) ∧
      (∀ d, d < k → linearToCoordFrom side k o ret d < side) ∧
      ∑ d ∈ Finset.range k, linearToCoordFrom side k o ret d * side ^ (k - 1 - d) = o := by
    intro k
    induction k with
    | zero => intro o ret ho _; simp at ho; exact ⟨fun d _ => rfl, fun d hd => by omega, by simp [ho]⟩
    | succ k ih =>
      intro o ret ho hret
      have hs' : 0 < side := by
        rcases Nat.eq_zero_or_pos side with h0 | h0
        · rw [h0, zero_pow (by omega)] at ho; omega
        · exact h0
      rw [linearToCoordFrom]
      by_cases h0 : o = 0
      · rw [if_pos h0]
        refine ⟨fun d _ => rfl, fun d hd => by rw [hret d hd]; exact hs', ?_⟩
        rw [h0]; exact Finset.sum_eq_zero fun d hd => by rw [hret d (Finset.mem_range.1 hd), Nat.zero_mul]
      · rw [if_neg h0]
        have hq : o / side < side ^ k := Nat.div_lt_of_lt_mul (by rw [Nat.mul_comm, ← pow_succ]; exact ho)
        obtain ⟨i1, i2, i3⟩ := ih (o / side) (upd ret k (o % side)) hq fun d hd => by rw [upd_ne _ _ (by omega)]; exact hret d (by omega)
        refine ⟨fun d hd => by rw [i1 d (by omega), upd_ne _ _ (by omega)], fun d hd => ?_, ?_⟩
        · rcases Nat.lt_or_ge d k with h' | h'
          · exact i2 d h'
          · rw [i1 d h', show d = k by omega, upd_same]; exact Nat.mod_lt _ hs'
        · rw [Finset.sum_range_succ, i1 k (Nat.le_refl k), upd_same, show k + 1 - 1 - k = 0 by omega, pow_zero, Nat.mul_one]
          have : ∑ d ∈ Finset.range k, linearToCoordFrom side k (o / side) (upd ret k (o % side)) d * side ^ (k + 1 - 1 - d)
              = side * ∑ d ∈ Finset.range k, linearToCoordFrom side k (o / side) (upd ret k (o % side)) d * side ^ (k - 1 - d) := by
            rw [Finset.mul_sum]
            refine Finset.sum_congr rfl fun d hd => ?_
            have hd := Finset.mem_range.1 hd
            rw [show k + 1 - 1 - d = (k - 1 - d) + 1 by omega, pow_succ]; ring
          rw [this, i3]; exact Nat.div_add_mod o side
  obtain ⟨-, g2, g3⟩ := gen dim o (fun _ => 0) h fun _ _ => rfl
  refine ⟨g2, ?_⟩
  rw [Fin.sum_univ_eq_sum_range (fun d => linearToCoord dim o side d * side ^ (dim - 1 - d))]
  exact g3

end Verif.Mat
