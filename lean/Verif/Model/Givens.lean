import Verif.Model.SmallMat
import Mathlib.Analysis.Real.Sqrt

/-!
Model of Givens rotations and of the decompositions made of them: `include/zensim/math/matrix/Givens.hpp` ("G") and
`include/zensim/math/matrix/QRSVD.hpp` ("Q").

Entries are real numbers: rounding is not modelled.  A matrix is the function from the indices to the entries (the positions of the entries in
the storage are the subject of `Model/SmallMat.lean`).  Parameters passed by reference are results.  The loop of the decomposition in three
dimensions runs until a tolerance is met; the model bounds the number of its passes and says nothing if the bound is reached.
-/
namespace Verif.Rot

open Verif.Mat (forN Store)

/-- A matrix: `A(i, j)`. -/
abbrev Mx := Nat → Nat → ℝ

/-- `A(i, j) = v`. -/
def set (A : Mx) (i j : Nat) (v : ℝ) : Mx := fun a b => if a = i ∧ b = j then v else A a b

/-- `identity`, `VecInterface.hpp` lines 319-327. -/
def identity : Mx := fun i j => if i = j then 1 else 0

/-- `transpose`, `VecInterface.hpp` lines 445-454. -/
def transpose (A : Mx) : Mx := fun i j => A j i

/-- `rsqrt`, `ZpcMathUtils.hpp` lines 842-846. -/
noncomputable def rsqrt (v : ℝ) : ℝ := 1 / √v

/-- `GivensRotation`, G lines 31-48. -/
structure Givens where
  rowi : Nat
  rowk : Nat
  c : ℝ
  s : ℝ

/-- The constructor with two rows, G lines 43-44. -/
def Givens.of (i k : Nat) : Givens := ⟨i, k, 1, 0⟩

open Classical in
/-- `computeConventional`, G lines 63-72. -/
noncomputable def Givens.conv (g : Givens) (a b : ℝ) : Givens :=
  let d := a * a + b * b
  if d ≠ 0 then
    let t := rsqrt d
    { g with c := a * t, s := -b * t }
  else { g with c := 1, s := 0 }

open Classical in
/-- `computeUnconventional`, G lines 80-89. -/
noncomputable def Givens.unconv (g : Givens) (a b : ℝ) : Givens :=
  let d := a * a + b * b
  if d ≠ 0 then
    let t := rsqrt d
    { g with s := a * t, c := b * t }
  else { g with c := 0, s := 1 }

/-- The constructor with two entries, G lines 45-48. -/
noncomputable def Givens.mk' (a b : ℝ) (i k : Nat) : Givens := (Givens.of i k).conv a b

/-- `transposeInPlace`, G line 55. -/
def Givens.transposed (g : Givens) : Givens := { g with s := -g.s }

/-- `fill`, G lines 98-104. -/
def Givens.fill (g : Givens) : Mx :=
  let A := identity
  let A := set A g.rowi g.rowi g.c
  let A := set A g.rowk g.rowi (-g.s)
  let A := set A g.rowi g.rowk g.s
  let A := set A g.rowk g.rowk g.c
  A

/-- `rowRotation`, G lines 117-126. -/
def Givens.row (n : Nat) (g : Givens) (A : Mx) : Mx :=
  forN n (fun A j =>
    let tau1 := A g.rowi j
    let tau2 := A g.rowk j
    let A := set A g.rowi j (g.c * tau1 - g.s * tau2)
    set A g.rowk j (g.s * tau1 + g.c * tau2)) A

/-- `columnRotation`, G lines 138-147. -/
def Givens.col (n : Nat) (g : Givens) (A : Mx) : Mx :=
  forN n (fun A i =>
    let tau1 := A i g.rowi
    let tau2 := A i g.rowk
    let A := set A i g.rowi (g.c * tau1 - g.s * tau2)
    set A i g.rowk (g.s * tau1 + g.c * tau2)) A

/-- `operator*=`, `operator*`, G lines 152-165. -/
def Givens.mul (g h : Givens) : Givens :=
  let newC := g.c * h.c - g.s * h.s
  let newS := g.s * h.c + g.c * h.s
  { g with c := newC, s := newS }

/-- The matrices `H`, `U`, `V` that the functions change. -/
structure St where
  H : Mx
  U : Mx
  V : Mx

open Classical in
/-- `zero_chasing`, G lines 187-232. -/
noncomputable def zeroChasing (x : St) : St :=
  let H := x.H
  let r1 := Givens.mk' (H 0 0) (H 1 0) 0 1
  let r2 := Givens.of 1 2
  let r2 := if H 1 0 ≠ 0 then r2.conv (H 0 0 * H 0 1 + H 1 0 * H 1 1) (H 0 0 * H 0 2 + H 1 0 * H 1 2) else r2.conv (H 0 1) (H 0 2)
  let H := r1.row 3 H
  let H := r2.col 3 H
  let V := r2.col 3 x.V
  let r3 := Givens.mk' (H 1 1) (H 2 1) 1 2
  let H := r3.row 3 H
  let U := r1.col 3 x.U
  let U := r3.col 3 U
  ⟨H, U, V⟩

/-- `upper_bidiagonalize`, G lines 244-259. -/
noncomputable def upperBidiagonalize (H : Mx) : St :=
  let r := Givens.mk' (H 1 0) (H 2 0) 1 2
  zeroChasing ⟨r.row 3 H, r.col 3 identity, identity⟩

/-- `make_lambda_shape`, G lines 273-321. -/
noncomputable def makeLambdaShape (H : Mx) : St :=
  let U := identity
  let V := identity
  let r1 := Givens.mk' (H 0 1) (H 0 2) 1 2
  let H := r1.col 3 H
  let V := r1.col 3 V
  let r1 := r1.unconv (H 1 2) (H 2 2)
  let H := r1.row 3 H
  let U := r1.col 3 U
  let r2 := Givens.mk' (H 2 0) (H 2 1) 0 1
  let H := r2.col 3 H
  let V := r2.col 3 V
  let r2 := r2.unconv (H 0 1) (H 1 1)
  let H := r2.row 3 H
  let U := r2.col 3 U
  ⟨H, U, V⟩

/-! ## QRSVD -/

open Classical in
/-- `polar_decomposition(A, R)` in two dimensions, Q lines 20-37: the rotation `R` and the matrix `S`. -/
noncomputable def polar2 (A : Mx) (R : Givens) : Givens × Mx :=
  let x0 := A 0 0 + A 1 1
  let x1 := A 1 0 - A 0 1
  let d := √(x0 * x0 + x1 * x1)
  let R := if d ≠ 0 then { R with c := x0 / d, s := -x1 / d } else { R with c := 1, s := 0 }
  (R, R.row 2 A)

/-- Results of `qr_svd` in two dimensions. -/
structure Svd2 where
  S0 : ℝ
  S1 : ℝ
  U : Givens
  V : Givens

open Classical in
/-- Q lines 52-83: cosine, sine and the two values for the symmetric matrix with the entries x, y, y, z. -/
noncomputable def diagonalize (x y z : ℝ) : ℝ × ℝ × ℝ × ℝ :=
  let y2 := y * y
  if y2 = 0 then (1, 0, x, z)
  else
    let tau := 1 / 2 * (x - z)
    let w := √(tau * tau + y2)
    let t := if tau > 0 then y / (tau + w) else y / (tau - w)
    let cosine := rsqrt (t * t + 1)
    let sine := -t * cosine
    let c2 := cosine * cosine
    let csy := 2 * cosine * sine * y
    let s2 := sine * sine
    (cosine, sine, c2 * x - csy + s2 * z, s2 * x + csy + c2 * z)

open Classical in
/-- `qr_svd(A, U, V)` in two dimensions, Q lines 44-99. -/
noncomputable def qrSvd2 (A : Mx) (U V : Givens) : Svd2 :=
  let p := polar2 A U
  let d := diagonalize (p.2 0 0) (p.2 0 1) (p.2 1 1)
  let cosine := d.1
  let sine := d.2.1
  let S0 := d.2.2.1
  let S1 := d.2.2.2
  if S0 < S1 then
    let V := { V with c := -sine, s := cosine }
    ⟨S1, S0, p.1.mul V, V⟩
  else
    let V := { V with c := cosine, s := sine }
    ⟨S0, S1, p.1.mul V, V⟩

open Classical in
/-- `wilkinson_shift`, Q lines 109-116. -/
noncomputable def wilkinsonShift (a1 b1 a2 : ℝ) : ℝ :=
  let d := 1 / 2 * (a1 - a2)
  let bs := b1 * b1
  let q := bs / (|d| + √(d * d + bs))
  a2 - if d < 0 then -|q| else |q|

/-- The matrices and values that `process` and `sort_sigma` change. -/
structure Sg where
  U : Mx
  S : Nat → ℝ
  V : Mx

/-- `sigma(j) = v`. -/
def setS (S : Nat → ℝ) (j : Nat) (v : ℝ) : Nat → ℝ := fun i => if i = j then v else S i

/-- The loop that changes the sign of a column, Q lines 169-172. -/
def negCol (A : Mx) (j : Nat) : Mx := forN 3 (fun A d => set A d j (-A d j)) A

/-- The loop that exchanges two columns, Q lines 154-157. -/
def swapCol (A : Mx) (j k : Nat) : Mx :=
  forN 3 (fun A d =>
    let tmp := A d j
    let A := set A d j (A d k)
    set A d k tmp) A

/-- `flip_sign`, Q lines 120-125. -/
def flipSign (j : Nat) (x : Sg) : Sg := { x with S := setS x.S j (-x.S j), U := negCol x.U j }

/-- `swapScalar(sigma(j), sigma(k))` and the loop over the columns of `U` and `V`. -/
def swapSigma (j k : Nat) (x : Sg) : Sg :=
  ⟨swapCol x.U j k, setS (setS x.S j (x.S k)) k (x.S j), swapCol x.V j k⟩

open Classical in
/-- `sort_sigma<0>`, Q lines 138-174. -/
noncomputable def sortSigma0 (x : Sg) : Sg :=
  if |x.S 1| ≥ |x.S 2| then
    if x.S 1 < 0 then flipSign 2 (flipSign 1 x) else x
  else
    let x := if x.S 2 < 0 then flipSign 2 (flipSign 1 x) else x
    let x := swapSigma 1 2 x
    if x.S 1 > x.S 0 then swapSigma 0 1 x
    else { x with U := negCol x.U 2, V := negCol x.V 2 }

open Classical in
/-- `sort_sigma<1>`, Q lines 178-224. -/
noncomputable def sortSigma1 (x : Sg) : Sg :=
  if |x.S 0| ≥ x.S 1 then
    if x.S 0 < 0 then flipSign 2 (flipSign 0 x) else x
  else
    let x := swapSigma 0 1 x
    let x := if |x.S 1| < |x.S 2| then swapSigma 1 2 x else { x with U := negCol x.U 1, V := negCol x.V 1 }
    if x.S 1 < 0 then flipSign 2 (flipSign 1 x) else x

/-- `process<t>`, Q lines 231-267 (the copy of the block back to `B` changes nothing). -/
noncomputable def process (t : Nat) (B U V : Mx) : Sg :=
  let other := if t = 1 then 0 else 2
  let S := setS (fun _ => 0) other (B other other)
  let B' : Mx := fun i j => B (t + i) (t + j)
  let r := qrSvd2 B' (Givens.of 0 1) (Givens.of 0 1)
  let S := setS S t r.S0
  let S := setS S (t + 1) r.S1
  let u := { r.U with rowi := r.U.rowi + t, rowk := r.U.rowk + t }
  let v := { r.V with rowi := r.V.rowi + t, rowk := r.V.rowk + t }
  ⟨u.col 3 U, S, v.col 3 V⟩

/-- `qr`, Q lines 276-290. -/
noncomputable def qr (N : Nat) (A : Mx) : Mx × Mx :=
  let x := forN N (fun (x : Mx × Mx) j =>
    forN (N - 1 - j) (fun x k =>
      let i := N - 1 - k
      let gq := Givens.mk' (x.2 (i - 1) j) (x.2 i j) (i - 1) i
      (gq.row N x.1, gq.row N x.2)) x) (identity, A)
  (transpose x.1, x.2)

/-- `gram_schmidt`, Q lines 298-334. -/
noncomputable def gramSchmidt (A : Mx) : Mx × Mx :=
  let d1 : Store ℝ := fun i => A i 0
  let d2 : Store ℝ := fun i => A i 1
  let d3 : Store ℝ := fun i => A i 2
  let q1 := Mat.normalized 3 d1
  let r11 := Mat.length 3 d1
  let r12 := Mat.dot 3 d2 q1
  let q2 := Mat.sub 3 d2 (Mat.smul 3 q1 r12)
  let r22 := Mat.length 3 q2
  let q2 := Mat.normalized 3 q2
  let r13 := Mat.dot 3 d3 q1
  let r23 := Mat.dot 3 d3 q2
  let q3 := Mat.sub 3 (Mat.sub 3 d3 (Mat.smul 3 q1 r13)) (Mat.smul 3 q2 r23)
  let r33 := Mat.length 3 q3
  let q3 := Mat.normalized 3 q3
  let Q := forN 3 (fun (Q : Mx) d => set (set (set Q d 0 (q1 d)) d 1 (q2 d)) d 2 (q3 d)) fun _ _ => 0
  let R : Mx := fun _ _ => 0
  let R := set R 0 0 r11
  let R := set R 0 1 r12
  let R := set R 0 2 r13
  let R := set R 1 1 r22
  let R := set R 1 2 r23
  let R := set R 2 2 r33
  (Q, R)

/-- The condition of the loop, Q lines 383-384. -/
def Running (tol : ℝ) (B : Mx) : Prop := |B 0 0| > tol ∧ |B 1 1| > tol ∧ |B 2 2| > tol ∧ |B 0 1| > tol ∧ |B 1 2| > tol

/-- The body of the loop, Q lines 385-400: `alpha`, `beta`, `gamma` are those of `B`. -/
noncomputable def qrStep (x : St) : St :=
  let B := x.H
  let mu := wilkinsonShift (B 1 1 * B 1 1 + B 0 1 * B 0 1) (B 1 1 * B 1 2) (B 2 2 * B 2 2 + B 1 2 * B 1 2)
  let r := (Givens.of 0 1).conv (B 0 0 * B 0 0 - mu) (B 0 0 * B 0 1)
  zeroChasing ⟨r.col 3 B, x.U, r.col 3 x.V⟩

open Classical in
/-- The loop with at most `fuel` passes. -/
noncomputable def qrLoop (tol : ℝ) : Nat → St → Option St
  | 0, x => if Running tol x.H then none else some x
  | fuel + 1, x => if Running tol x.H then qrLoop tol fuel (qrStep x) else some x

/-- The tolerance, Q lines 374-380; `eta` is 128 times the epsilon of the number type. -/
noncomputable def tolerance (eta : ℝ) (B : Mx) : ℝ :=
  eta * max (1 / 2 * √(B 0 0 * B 0 0 + B 1 1 * B 1 1 + B 2 2 * B 2 2 + B 0 1 * B 0 1 + B 1 2 * B 1 2)) 1

open Classical in
/-- The cases after the loop, Q lines 428-527.  One of the conditions holds after the loop; if none did, the result would be the matrices and
the values 0. -/
noncomputable def finish (tol : ℝ) (x : St) : Sg :=
  let B := x.H
  if |B 1 2| ≤ tol then sortSigma0 (process 0 B x.U x.V)
  else if |B 0 1| ≤ tol then sortSigma1 (process 1 B x.U x.V)
  else if |B 1 1| ≤ tol then
    let r1 := (Givens.of 1 2).unconv (B 1 2) (B 2 2)
    sortSigma0 (process 0 (r1.row 3 B) (r1.col 3 x.U) x.V)
  else if |B 2 2| ≤ tol then
    let r1 := (Givens.of 1 2).conv (B 1 1) (B 1 2)
    let B := r1.col 3 B
    let V := r1.col 3 x.V
    let r2 := (Givens.of 0 2).conv (B 0 0) (B 0 2)
    sortSigma0 (process 0 (r2.col 3 B) x.U (r2.col 3 V))
  else if |B 0 0| ≤ tol then
    let r1 := (Givens.of 0 1).unconv (B 0 1) (B 1 1)
    let B := r1.row 3 B
    let U := r1.col 3 x.U
    let r2 := (Givens.of 0 2).unconv (B 0 2) (B 2 2)
    sortSigma1 (process 1 (r2.row 3 B) (r2.col 3 U) x.V)
  else ⟨x.U, fun _ => 0, x.V⟩

/-- `qr_svd(A)` in three dimensions, Q lines 343-528. -/
noncomputable def qrSvd3 (eta : ℝ) (fuel : Nat) (A : Mx) : Option Sg :=
  let x := upperBidiagonalize A
  let tol := tolerance eta x.H
  (qrLoop tol fuel x).map (finish tol)

/-- `polar_decomposition(A)` in two dimensions, Q lines 548-552. -/
noncomputable def polarDecomposition2 (A : Mx) : Mx × Mx :=
  let p := polar2 A (Givens.of 0 1)
  (p.1.fill, p.2)

/-- The product of two matrices (see `Mat.matMul`). -/
def mul (n : Nat) (A B : Mx) : Mx := fun i j => forN n (fun r k => r + A i k * B k j) 0

/-- `polar_decomposition(A)` in three dimensions, Q lines 553-558. -/
noncomputable def polarDecomposition3 (eta : ℝ) (fuel : Nat) (A : Mx) : Option (Mx × Mx) :=
  (qrSvd3 eta fuel A).map fun x => (mul 3 x.U (transpose x.V), mul 3 (fun i j => x.V i j * x.S j) (transpose x.V))

end Verif.Rot
