import Mathlib.Algebra.Field.Basic
import Mathlib.Algebra.Order.Field.Basic
import Mathlib.Analysis.Real.Sqrt

/-!
Model of small vectors and matrices: `include/zensim/math/VecInterface.hpp` ("I"), `include/zensim/math/Vec.h` ("V") and
`include/zensim/math/matrix/MatrixUtils.h` ("U").

A `vec` is its storage `_data`, a function of the position; the extents are parameters.  Loops are folds that write one position at a time.
Entries are the elements of a commutative ring or field: conversions between number types and rounding are not modelled.
-/
namespace Verif.Mat

/-- The storage of a `vec`, V line 160. -/
abbrev Store (K : Type) := Nat → K

/-- `for (i = 0; i != n; ++i)`. -/
def forN {σ : Type} (n : Nat) (f : σ → Nat → σ) (s : σ) : σ := (List.range n).foldl f s

/-- `r.val(i) = v`. -/
def upd {K : Type} (r : Store K) (i : Nat) (v : K) : Store K := fun k => if k = i then v else r k

/-! ## Positions -/

/-- `excl_suffix_mul` of the extents in storage order, I lines 22-24 and `ZpcMathUtils.hpp` lines 277-280. -/
def storageBase (ns orders : List Nat) (k : Nat) : Nat :=
  ((List.range orders.length).map fun l => if l > k then ns.getD (orders.getD l 0) 0 else 1).prod

/-- `lookup_orders`, `lookup_bases`, I lines 20 and 25-26. -/
def lookupBase (ns orders : List Nat) (i : Nat) : Nat := storageBase ns orders (orders.idxOf i)

/-- `offset`, I lines 37-44. -/
def offset (ns orders args : List Nat) : Nat :=
  ((List.range args.length).map fun j => args.getD j 0 * lookupBase ns orders j).sum

/-- `indexer<Tn, M, N>::offset(i, j)`: the position of row i, column j (`offset` with the orders 0, 1; see `offset_two`). -/
def at2 (N i j : Nat) : Nat := i * N + j

/-! ## VecInterface -/

section Ring

variable {K : Type} [CommRing K]

/-- `constant`, I lines 285-292. -/
def constant (n : Nat) (v : K) : Store K := forN n (fun r i => upd r i v) fun _ => 0

/-- `identity`, I lines 319-327, for two dimensions. -/
def identity (N : Nat) : Store K := forN N (fun r i => upd r (at2 N i i) 1) (constant (N * N) 0)

/-- `transpose`, I lines 445-454. -/
def transpose (M N : Nat) (a : Store K) : Store K :=
  forN M (fun r i => forN N (fun r j => upd r (at2 M j i) (a (at2 N i j))) r) fun _ => 0

/-- `sum`, I lines 462-469. -/
def sum (n : Nat) (a : Store K) : K := forN n (fun res i => res + a i) 0

/-- `prod`, I lines 455-461. -/
def prod (n : Nat) (a : Store K) : K := forN n (fun res i => res * a i) 1

/-- `l2NormSqr`, I lines 470-477. -/
def l2NormSqr (n : Nat) (a : Store K) : K := forN n (fun res i => res + a i * a i) 0

/-- `operator+(VecInterface, VecInterface)`, `operator-`, I lines 726-738. -/
def add (n : Nat) (a b : Store K) : Store K := forN n (fun r i => upd r i (a i + b i)) fun _ => 0

def sub (n : Nat) (a b : Store K) : Store K := forN n (fun r i => upd r i (a i - b i)) fun _ => 0

/-- `operator*(VecInterface, TT)`, I lines 672-682 and 695. -/
def smul (n : Nat) (a : Store K) (v : K) : Store K := forN n (fun r i => upd r i (a i * v)) fun _ => 0

/-- Unary `operator-`, I lines 432-437. -/
def neg (n : Nat) (a : Store K) : Store K := forN n (fun r i => upd r i (-a i)) fun _ => 0

/-- The product of matrices, I lines 764-781: `M` by `L` times `L` by `N`. -/
def matMul (M L N : Nat) (a b : Store K) : Store K :=
  forN M (fun r i => forN N (fun r j =>
    let r := upd r (at2 N i j) 0
    forN L (fun r k => upd r (at2 N i j) (r (at2 N i j) + a (at2 L i k) * b (at2 N k j))) r) r) fun _ => 0

/-- The product of a matrix and a vector, I lines 783-798. -/
def matVec (M N : Nat) (a x : Store K) : Store K :=
  forN M (fun r i =>
    let r := upd r i 0
    forN N (fun r j => upd r i (r i + a (at2 N i j) * x j)) r) fun _ => 0

/-- The product of a vector and a matrix, I lines 799-814. -/
def vecMat (M N : Nat) (x a : Store K) : Store K :=
  forN N (fun r j =>
    let r := upd r j 0
    forN M (fun r i => upd r j (r j + a (at2 N i j) * x i)) r) fun _ => 0

/-- `dot`, I lines 918-928. -/
def dot (n : Nat) (a b : Store K) : K := forN n (fun res i => res + a i * b i) 0

/-- `cross` in two dimensions, I lines 929-938. -/
def cross2 (a b : Store K) : K := a 0 * b 1 - a 1 * b 0

/-- `cross` in three dimensions, I lines 940-956. -/
def cross3 (a b : Store K) : Store K :=
  let res : Store K := fun _ => 0
  let res := upd res 0 (a 1 * b 2 - a 2 * b 1)
  let res := upd res 1 (a 2 * b 0 - a 0 * b 2)
  let res := upd res 2 (a 0 * b 1 - a 1 * b 0)
  res

/-- `cross_matrix`, V lines 375-390. -/
def crossMatrix (v : Store K) : Store K :=
  let m : Store K := fun _ => 0
  let m := upd m (at2 3 2 2) 0
  let m := upd m (at2 3 1 1) 0
  let m := upd m (at2 3 0 0) 0
  let m := upd m (at2 3 0 1) (-v 2)
  let m := upd m (at2 3 0 2) (v 1)
  let m := upd m (at2 3 1 0) (v 2)
  let m := upd m (at2 3 1 2) (-v 0)
  let m := upd m (at2 3 2 0) (-v 1)
  let m := upd m (at2 3 2 1) (v 0)
  m

/-- `vectorize` and `flatten` in column-major order, V lines 392-402 and 427-437: the pair of storage and `no`. -/
def flattenCol (M N : Nat) (m : Store K) : Store K :=
  (forN N (fun s j => forN M (fun s i => (upd s.1 s.2 (m (at2 N i j)), s.2 + 1)) s) ((fun _ => 0 : Store K), 0)).1

/-- The same in row-major order, V lines 403-404 and 439-440. -/
def flattenRow (M N : Nat) (m : Store K) : Store K :=
  (forN M (fun s i => forN N (fun s j => (upd s.1 s.2 (m (at2 N i j)), s.2 + 1)) s) ((fun _ => 0 : Store K), 0)).1

/-- `row`, V lines 409-417. -/
def row (N : Nat) (m : Store K) (i : Nat) : Store K := forN N (fun r j => upd r j (m (at2 N i j))) fun _ => 0

/-- `col`, V lines 418-426. -/
def col (M N : Nat) (m : Store K) (j : Nat) : Store K := forN M (fun c i => upd c i (m (at2 N i j))) fun _ => 0

/-- `trace`, V lines 445-453. -/
def trace (n : Nat) (m : Store K) : K := forN n (fun r i => r + m (at2 n i i)) 0

/-- `dyadic_prod`, V lines 456-467. -/
def dyadic (M N : Nat) (c r : Store K) : Store K :=
  forN M (fun m i => forN N (fun m j => upd m (at2 N i j) (c i * r j)) m) fun _ => 0

/-- `diag_mul`, V lines 664-671 (diagonal on the right). -/
def diagMulR (M N : Nat) (a d : Store K) : Store K :=
  forN M (fun r i => forN N (fun r j => upd r (at2 N i j) (a (at2 N i j) * d j)) r) fun _ => 0

/-- `diag_mul`, V lines 676-683 (diagonal on the left). -/
def diagMulL (M N : Nat) (d a : Store K) : Store K :=
  forN M (fun r i => forN N (fun r j => upd r (at2 N i j) (a (at2 N i j) * d i)) r) fun _ => 0

/-- The affine map, V lines 691-703: `A` has `M + 1` rows and `N + 1` columns. -/
def affine (M N : Nat) (a x : Store K) : Store K :=
  forN M (fun r i =>
    let r := upd r i 0
    forN (N + 1) (fun r j => upd r i (r i + (if j = N then a (at2 (N + 1) i j) else a (at2 (N + 1) i j) * x j))) r) fun _ => 0

/-- The affine map for a vector on the left, V lines 709-721. -/
def affineT (M N : Nat) (x a : Store K) : Store K :=
  forN N (fun r j =>
    let r := upd r j 0
    forN (M + 1) (fun r i => upd r j (r j + (if i = M then a (at2 (N + 1) i j) else a (at2 (N + 1) i j) * x i))) r) fun _ => 0

/-! ## Determinants -/

/-- `det2`, V lines 470-473, for a matrix with 4 columns. -/
def det2 (i0 i1 : Nat) (a : Store K) : K := a (at2 4 i0 0) * a (at2 4 i1 1) - a (at2 4 i1 0) * a (at2 4 i0 1)

/-- `det3`, V lines 474-481. -/
def det3 (i0 i1 i2 : Nat) (a : Store K) (d0 d1 d2 : K) : K := a (at2 4 i0 2) * d0 + (-a (at2 4 i1 2) * d1 + a (at2 4 i2 2) * d2)

/-- One pass of the two inner loops of the general `determinant`, V lines 565-574: the matrix without row 0 and column j. -/
def minor (n j : Nat) (a : Store K) (m : Store K) : Store K :=
  forN n (fun m r' =>
    let r := r' + 1
    (forN (n + 1) (fun (s : Nat × Store K) c =>
      if c = j then (1, s.2) else (s.1, upd s.2 (at2 n (r - 1) (c - s.1)) (a (at2 (n + 1) r c)))) (0, m)).2) m

/-- `determinant`, V lines 516-578.  There are no matrices without rows. -/
def determinant : Nat → Store K → K
  | 0, _ => 1
  | 1, a => a (at2 1 0 0)
  | 2, a => a (at2 2 0 0) * a (at2 2 1 1) - a (at2 2 1 0) * a (at2 2 0 1)
  | 3, a => a (at2 3 0 0) * (a (at2 3 1 1) * a (at2 3 2 2) - a (at2 3 1 2) * a (at2 3 2 1))
      - a (at2 3 0 1) * (a (at2 3 1 0) * a (at2 3 2 2) - a (at2 3 1 2) * a (at2 3 2 0))
      + a (at2 3 0 2) * (a (at2 3 1 0) * a (at2 3 2 1) - a (at2 3 1 1) * a (at2 3 2 0))
  | 4, a =>
    let d2_01 := det2 0 1 a
    let d2_02 := det2 0 2 a
    let d2_03 := det2 0 3 a
    let d2_12 := det2 1 2 a
    let d2_13 := det2 1 3 a
    let d2_23 := det2 2 3 a
    let d3_0 := det3 1 2 3 a d2_23 d2_13 d2_12
    let d3_1 := det3 0 2 3 a d2_23 d2_03 d2_02
    let d3_2 := det3 0 1 3 a d2_13 d2_03 d2_01
    let d3_3 := det3 0 1 2 a d2_12 d2_02 d2_01
    (-a (at2 4 0 3)) * d3_0 + a (at2 4 1 3) * d3_1 + -a (at2 4 2 3) * d3_2 + a (at2 4 3 3) * d3_3
  | n + 5, a =>
    (forN (n + 5) (fun (s : K × Store K) j =>
      let m := minor (n + 4) j a s.2
      (s.1 + (if j % 2 = 1 then -1 else 1) * a (at2 (n + 5) 0 j) * determinant (n + 4) m, m)) (0, fun _ => 0)).1

/-- `cofactor` of a matrix with 3 rows, V lines 482-492. -/
def cofactor3 (i j : Nat) (a : Store K) : K :=
  let i1 := (i + 1) % 3
  let i2 := (i + 2) % 3
  let j1 := (j + 1) % 3
  let j2 := (j + 2) % 3
  a (at2 3 i1 j1) * a (at2 3 i2 j2) - a (at2 3 i1 j2) * a (at2 3 i2 j1)

/-- `det3` with six indices, V lines 493-499. -/
def det3' (i1 i2 i3 j1 j2 j3 : Nat) (a : Store K) : K :=
  a (at2 4 i1 j1) * (a (at2 4 i2 j2) * a (at2 4 i3 j3) - a (at2 4 i2 j3) * a (at2 4 i3 j2))

/-- `cofactor` of a matrix with 4 rows, V lines 500-513. -/
def cofactor4 (i j : Nat) (a : Store K) : K :=
  let i1 := (i + 1) % 4
  let i2 := (i + 2) % 4
  let i3 := (i + 3) % 4
  let j1 := (j + 1) % 4
  let j2 := (j + 2) % 4
  let j3 := (j + 3) % 4
  det3' i1 i2 i3 j1 j2 j3 a + det3' i2 i3 i1 j1 j2 j3 a + det3' i3 i1 i2 j1 j2 j3 a

/-! ## MatrixUtils: column-major arrays -/

/-- A function that writes the elements `l` to `out[0]`, `out[1]`, ... -/
def write (l : List K) : Store K := fun i => l.getD i 0

/-- U lines 10-17. -/
def matDiagMatT2 (a d b : Store K) : Store K := write
  [a 0 * d 0 * b 0 + a 2 * d 1 * b 2, a 1 * d 0 * b 0 + a 3 * d 1 * b 2,
   a 0 * d 0 * b 1 + a 2 * d 1 * b 3, a 1 * d 0 * b 1 + a 3 * d 1 * b 3]

/-- U lines 25-47. -/
def matDiagMatT3 (a d b : Store K) : Store K := write
  [a 0 * d 0 * b 0 + a 3 * d 1 * b 3 + a 6 * d 2 * b 6,
   a 1 * d 0 * b 0 + a 4 * d 1 * b 3 + a 7 * d 2 * b 6,
   a 2 * d 0 * b 0 + a 5 * d 1 * b 3 + a 8 * d 2 * b 6,
   a 0 * d 0 * b 1 + a 3 * d 1 * b 4 + a 6 * d 2 * b 7,
   a 1 * d 0 * b 1 + a 4 * d 1 * b 4 + a 7 * d 2 * b 7,
   a 2 * d 0 * b 1 + a 5 * d 1 * b 4 + a 8 * d 2 * b 7,
   a 0 * d 0 * b 2 + a 3 * d 1 * b 5 + a 6 * d 2 * b 8,
   a 1 * d 0 * b 2 + a 4 * d 1 * b 5 + a 7 * d 2 * b 8,
   a 2 * d 0 * b 2 + a 5 * d 1 * b 5 + a 8 * d 2 * b 8]

/-- `matT_mul_vec_3D`, U lines 49-54. -/
def matTVec3 (m v : Store K) : Store K := write
  [m 0 * v 0 + m 1 * v 1 + m 2 * v 2, m 3 * v 0 + m 4 * v 1 + m 5 * v 2, m 6 * v 0 + m 7 * v 1 + m 8 * v 2]

/-- `vec_crossMul_vec_3D`, U lines 56-62. -/
def crossMul3 (a b : Store K) : Store K := write
  [a 1 * b 2 + a 2 * b 1, a 2 * b 0 + a 0 * b 2, a 0 * b 1 + a 1 * b 0]

/-- `matrixCofactor2d`, U lines 64-69. -/
def matrixCofactor2 (x : Store K) : Store K := write [x 3, -x 2, -x 1, x 0]

/-- `matrixCofactor3d`, U lines 71-83. -/
def matrixCofactor3 (x : Store K) : Store K := write
  [x 4 * x 8 - x 7 * x 5, x 7 * x 2 - x 1 * x 8, x 1 * x 5 - x 4 * x 2,
   x 6 * x 5 - x 3 * x 8, x 0 * x 8 - x 6 * x 2, x 3 * x 2 - x 0 * x 5,
   x 3 * x 7 - x 6 * x 4, x 6 * x 1 - x 0 * x 7, x 0 * x 4 - x 3 * x 1]

/-- `matrixDeterminant3d`, U lines 104-107. -/
def matrixDet3 (x : Store K) : K :=
  x 0 * (x 4 * x 8 - x 7 * x 5) + x 3 * (x 7 * x 2 - x 1 * x 8) + x 6 * (x 1 * x 5 - x 4 * x 2)

/-- `matrixDeterminant2d`, U lines 109-111. -/
def matrixDet2 (x : Store K) : K := x 0 * x 3 - x 1 * x 2

/-- `matrixTranspose3d`, U lines 113-123. -/
def matrixTranspose3 (x : Store K) : Store K := write [x 0, x 3, x 6, x 1, x 4, x 7, x 2, x 5, x 8]

/-- `matrixTranspose2d`, U lines 125-130. -/
def matrixTranspose2 (x : Store K) : Store K := write [x 0, x 2, x 1, x 3]

/-- `matrixTrace3d`, `matrixTrace2d`, U lines 132-134. -/
def matrixTrace3 (x : Store K) : K := x 0 + x 4 + x 8

def matrixTrace2 (x : Store K) : K := x 0 + x 3

/-- `matrixMatrixMultiplication3d`, U lines 136-146. -/
def matrixMul3 (a b : Store K) : Store K := write
  [a 0 * b 0 + a 3 * b 1 + a 6 * b 2, a 1 * b 0 + a 4 * b 1 + a 7 * b 2, a 2 * b 0 + a 5 * b 1 + a 8 * b 2,
   a 0 * b 3 + a 3 * b 4 + a 6 * b 5, a 1 * b 3 + a 4 * b 4 + a 7 * b 5, a 2 * b 3 + a 5 * b 4 + a 8 * b 5,
   a 0 * b 6 + a 3 * b 7 + a 6 * b 8, a 1 * b 6 + a 4 * b 7 + a 7 * b 8, a 2 * b 6 + a 5 * b 7 + a 8 * b 8]

/-- `matrixMatrixMultiplication2d`, U lines 148-153. -/
def matrixMul2 (a b : Store K) : Store K := write
  [a 0 * b 0 + a 2 * b 1, a 1 * b 0 + a 3 * b 1, a 0 * b 2 + a 2 * b 3, a 1 * b 2 + a 3 * b 3]

/-- `matrixDiagonalMatrixMultiplication3d`, U lines 155-166. -/
def matrixDiag3 (a b : Store K) : Store K := write
  [a 0 * b 0, a 1 * b 0, a 2 * b 0, a 3 * b 1, a 4 * b 1, a 5 * b 1, a 6 * b 2, a 7 * b 2, a 8 * b 2]

/-- `matrixDiagonalMatrixMultiplication2d`, U lines 168-174. -/
def matrixDiag2 (a b : Store K) : Store K := write [a 0 * b 0, a 1 * b 0, a 2 * b 1, a 3 * b 1]

/-- `matrixTransposeMatrixMultiplication3d`, U lines 176-187. -/
def matrixTMul3 (a b : Store K) : Store K := write
  [a 0 * b 0 + a 1 * b 1 + a 2 * b 2, a 3 * b 0 + a 4 * b 1 + a 5 * b 2, a 6 * b 0 + a 7 * b 1 + a 8 * b 2,
   a 0 * b 3 + a 1 * b 4 + a 2 * b 5, a 3 * b 3 + a 4 * b 4 + a 5 * b 5, a 6 * b 3 + a 7 * b 4 + a 8 * b 5,
   a 0 * b 6 + a 1 * b 7 + a 2 * b 8, a 3 * b 6 + a 4 * b 7 + a 5 * b 8, a 6 * b 6 + a 7 * b 7 + a 8 * b 8]

/-- `matrixTransposeMatrixMultiplication2d`, U lines 189-195. -/
def matrixTMul2 (a b : Store K) : Store K := write
  [a 0 * b 0 + a 1 * b 1, a 2 * b 0 + a 3 * b 1, a 0 * b 2 + a 1 * b 3, a 2 * b 2 + a 3 * b 3]

/-- `matrixVectorMultiplication3d`, U lines 197-202. -/
def matrixVec3 (x v : Store K) : Store K := write
  [x 0 * v 0 + x 3 * v 1 + x 6 * v 2, x 1 * v 0 + x 4 * v 1 + x 7 * v 2, x 2 * v 0 + x 5 * v 1 + x 8 * v 2]

/-- `matrixVectorMultiplication2d`, U lines 204-208. -/
def matrixVec2 (x v : Store K) : Store K := write [x 0 * v 0 + x 2 * v 1, x 1 * v 0 + x 3 * v 1]

/-- `vectorMatrixMultiplication3d`, U lines 210-215. -/
def vectorMat3 (v x : Store K) : Store K := write
  [x 0 * v 0 + x 1 * v 1 + x 2 * v 2, x 3 * v 0 + x 4 * v 1 + x 5 * v 2, x 6 * v 0 + x 7 * v 1 + x 8 * v 2]

/-- `vectorMatrixMultiplication2d`, U lines 217-221. -/
def vectorMat2 (v x : Store K) : Store K := write [x 0 * v 0 + x 1 * v 1, x 2 * v 0 + x 3 * v 1]

/-- `matrixMatrixTransposeMultiplication3d`, U lines 223-234. -/
def matrixMulT3 (a b : Store K) : Store K := write
  [a 0 * b 0 + a 3 * b 3 + a 6 * b 6, a 1 * b 0 + a 4 * b 3 + a 7 * b 6, a 2 * b 0 + a 5 * b 3 + a 8 * b 6,
   a 0 * b 1 + a 3 * b 4 + a 6 * b 7, a 1 * b 1 + a 4 * b 4 + a 7 * b 7, a 2 * b 1 + a 5 * b 4 + a 8 * b 7,
   a 0 * b 2 + a 3 * b 5 + a 6 * b 8, a 1 * b 2 + a 4 * b 5 + a 7 * b 8, a 2 * b 2 + a 5 * b 5 + a 8 * b 8]

/-- `matrixMatrixTransposeMultiplication2d`, U lines 236-242. -/
def matrixMulT2 (a b : Store K) : Store K := write
  [a 0 * b 0 + a 2 * b 2, a 1 * b 0 + a 3 * b 2, a 0 * b 1 + a 2 * b 3, a 1 * b 1 + a 3 * b 3]

/-- `matrixMatrixTranposeMultiplication3d`, U lines 244-256. -/
def matrixMulSelfT3 (a : Store K) : Store K := write
  [a 0 * a 0 + a 3 * a 3 + a 6 * a 6, a 1 * a 0 + a 4 * a 3 + a 7 * a 6, a 2 * a 0 + a 5 * a 3 + a 8 * a 6,
   a 0 * a 1 + a 3 * a 4 + a 6 * a 7, a 1 * a 1 + a 4 * a 4 + a 7 * a 7, a 2 * a 1 + a 5 * a 4 + a 8 * a 7,
   a 0 * a 2 + a 3 * a 5 + a 6 * a 8, a 1 * a 2 + a 4 * a 5 + a 7 * a 8, a 2 * a 2 + a 5 * a 5 + a 8 * a 8]

end Ring

section Field

variable {K : Type} [Field K]

/-- `operator/(VecInterface, TT)`, I lines 672-682 and 696. -/
def sdiv (n : Nat) (a : Store K) (v : K) : Store K := forN n (fun r i => upd r i (a i / v)) fun _ => 0

/-- `deviatoric`, I lines 660-668. -/
def deviatoric (n : Nat) (a : Store K) : Store K :=
  let rightTerm := -sum n a / (n : K)
  forN n (fun r i => upd r i (a i + rightTerm)) fun _ => 0

/-- `matrixDeviatoric3d`, U lines 258-271. -/
def matrixDeviatoric3 (x : Store K) : Store K :=
  let t := (x 0 + x 4 + x 8) / 3
  write [x 0 - t, x 1, x 2, x 3, x 4 - t, x 5, x 6, x 7, x 8 - t]

/-- `inverse` of a 1 by 1 matrix, V lines 580-589. -/
def inverse1 (a : Store K) : Store K := upd (constant 1 0) (at2 1 0 0) (1 / a (at2 1 0 0))

/-- `inverse` of a 2 by 2 matrix, V lines 590-603. -/
def inverse2 (a : Store K) : Store K :=
  let ret : Store K := constant 4 0
  let invdet := 1 / determinant 2 a
  let ret := upd ret (at2 2 0 0) (a (at2 2 1 1) * invdet)
  let ret := upd ret (at2 2 1 0) (-a (at2 2 1 0) * invdet)
  let ret := upd ret (at2 2 0 1) (-a (at2 2 0 1) * invdet)
  let ret := upd ret (at2 2 1 1) (a (at2 2 0 0) * invdet)
  ret

/-- `inverse` of a 3 by 3 matrix, V lines 604-628. -/
def inverse3 (a : Store K) : Store K :=
  let ret : Store K := constant 9 0
  let ret := upd ret (at2 3 0 0) (cofactor3 0 0 a)
  let ret := upd ret (at2 3 0 1) (cofactor3 1 0 a)
  let ret := upd ret (at2 3 0 2) (cofactor3 2 0 a)
  let invdet := 1 / (ret (at2 3 0 0) * a (at2 3 0 0) + ret (at2 3 0 1) * a (at2 3 1 0) + ret (at2 3 0 2) * a (at2 3 2 0))
  let c01 := cofactor3 0 1 a * invdet
  let c11 := cofactor3 1 1 a * invdet
  let c02 := cofactor3 0 2 a * invdet
  let ret := upd ret (at2 3 1 2) (cofactor3 2 1 a * invdet)
  let ret := upd ret (at2 3 2 1) (cofactor3 1 2 a * invdet)
  let ret := upd ret (at2 3 2 2) (cofactor3 2 2 a * invdet)
  let ret := upd ret (at2 3 1 0) c01
  let ret := upd ret (at2 3 1 1) c11
  let ret := upd ret (at2 3 2 0) c02
  let ret := upd ret (at2 3 0 0) (ret (at2 3 0 0) * invdet)
  let ret := upd ret (at2 3 0 1) (ret (at2 3 0 1) * invdet)
  let ret := upd ret (at2 3 0 2) (ret (at2 3 0 2) * invdet)
  ret

/-- The matrix `ret` before the division, V lines 635-654. -/
def adjugate4 (a : Store K) : Store K :=
  let ret : Store K := constant 16 0
  let ret := upd ret (at2 4 0 0) (cofactor4 0 0 a)
  let ret := upd ret (at2 4 1 0) (-cofactor4 0 1 a)
  let ret := upd ret (at2 4 2 0) (cofactor4 0 2 a)
  let ret := upd ret (at2 4 3 0) (-cofactor4 0 3 a)
  let ret := upd ret (at2 4 0 2) (cofactor4 2 0 a)
  let ret := upd ret (at2 4 1 2) (-cofactor4 2 1 a)
  let ret := upd ret (at2 4 2 2) (cofactor4 2 2 a)
  let ret := upd ret (at2 4 3 2) (-cofactor4 2 3 a)
  let ret := upd ret (at2 4 0 1) (-cofactor4 1 0 a)
  let ret := upd ret (at2 4 1 1) (cofactor4 1 1 a)
  let ret := upd ret (at2 4 2 1) (-cofactor4 1 2 a)
  let ret := upd ret (at2 4 3 1) (cofactor4 1 3 a)
  let ret := upd ret (at2 4 0 3) (-cofactor4 3 0 a)
  let ret := upd ret (at2 4 1 3) (cofactor4 3 1 a)
  let ret := upd ret (at2 4 2 3) (-cofactor4 3 2 a)
  let ret := upd ret (at2 4 3 3) (cofactor4 3 3 a)
  ret

/-- `inverse` of a 4 by 4 matrix, V lines 629-658. -/
def inverse4 (a : Store K) : Store K :=
  let ret := adjugate4 a
  sdiv 16 ret (a (at2 4 0 0) * ret (at2 4 0 0) + a (at2 4 1 0) * ret (at2 4 0 1) + a (at2 4 2 0) * ret (at2 4 0 2)
    + a (at2 4 3 0) * ret (at2 4 0 3))

end Field

section Ordered

variable {K : Type} [Field K] [LinearOrder K]

/-- `max`, I lines 513-520. -/
def max (n : Nat) (a : Store K) : K := forN (n - 1) (fun res i => if a (i + 1) > res then a (i + 1) else res) (a 0)

/-- `min`, I lines 532-539. -/
def min (n : Nat) (a : Store K) : K := forN (n - 1) (fun res i => if a (i + 1) < res then a (i + 1) else res) (a 0)

/-- `abs`, I lines 591-598. -/
def abs (n : Nat) (a : Store K) : Store K := forN n (fun r i => upd r i (if a i > 0 then a i else -a i)) fun _ => 0

/-- `infNorm`, I lines 500-503. -/
def infNorm (n : Nat) (a : Store K) : K := max n (abs n a)

/-- `infNormSqr`, I lines 478-485. -/
def infNormSqr (n : Nat) (a : Store K) : K := forN n (fun res i => if a i * a i > res then a i * a i else res) 0

/-- `near_zero`, `ZpcMathUtils.hpp` lines 290-294. -/
def nearZero (eps v : K) : Bool := v ≥ -eps ∧ v ≤ eps

/-- `parallel`, I lines 976-990, for three components: `dim` is the number of indices of a vector, which is 1. -/
def parallel (eps : K) (a b : Store K) : Bool :=
  let c := cross3 a b
  (List.range 1).any fun d => nearZero eps (c d)

/-- `orthogonal` in three dimensions, I lines 564-589. -/
def orthogonal3 (a : Store K) : Store K :=
  let x := |a 0|
  let y := |a 1|
  let z := |a 2|
  let r : Store K := constant 3 0
  let r := if x < y then (if x < z then upd r 0 1 else upd r 2 1) else (if y < z then upd r 1 1 else upd r 2 1)
  cross3 a r

end Ordered

/-- `length`, I lines 487-494. -/
noncomputable def length (n : Nat) (a : Store ℝ) : ℝ := Real.sqrt (l2NormSqr n a)

/-- `normalized`, I lines 504-512. -/
noncomputable def normalized (n : Nat) (a : Store ℝ) : Store ℝ :=
  let len := length n a
  forN n (fun r i => upd r i (a i / len)) fun _ => 0

/-- `orthogonal` in two dimensions, I lines 551-563. -/
noncomputable def orthogonal2 (a : Store ℝ) : Store ℝ :=
  let r : Store ℝ := fun _ => 0
  let r := upd r 0 (-a 1)
  let r := upd r 1 (a 0)
  normalized 2 r

/-! ## Coordinates -/

/-- `unpack_coord`, V lines 354-361, one component: block and position in the block. -/
def unpackCoord (id side : Int) : Int × Int :=
  let bid := id + (if id < 0 then 1 - side else 0)
  let bid := bid.tdiv side
  (bid, id - bid * side)

/-- `linear_to_coord`, V lines 362-369: the loop from `d = k - 1` down. -/
def linearToCoordFrom (side : Nat) : (k : Nat) → Nat → Store Nat → Store Nat
  | 0, _, ret => ret
  | k + 1, o, ret => if o = 0 then ret else linearToCoordFrom side k (o / side) (upd ret k (o % side))

def linearToCoord (dim o side : Nat) : Store Nat := linearToCoordFrom side dim o fun _ => 0

end Verif.Mat
