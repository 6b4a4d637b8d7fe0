import Verif.Model.Givens
import Mathlib.Analysis.SpecialFunctions.Complex.Arg

/-!
Model of the eigenvalue decompositions of symmetric matrices and of the projection to positive semidefinite matrices:
`include/zensim/math/matrix/Eigen.hpp` ("E").

Entries are real numbers: rounding is not modelled.  `eps` is the epsilon of the number type.  The iteration for matrices of four rows and more
runs until a tolerance is met; the model bounds the number of its passes.
-/
namespace Verif.Eig

open Verif.Mat (forN Store)
open Verif.Rot (Mx set identity)

/-- Eigenvalues and eigenvectors (the columns). -/
structure Dec where
  e : Nat → ℝ
  E : Mx

/-- `x(i) = v`. -/
def upd {T : Type} (x : Nat → T) (i : Nat) (v : T) : Nat → T := fun j => if j = i then v else x j

/-- `abs().max()`, `VecInterface.hpp` lines 591-598 and 523-531 (see `Mat.infNorm_spec`): positions row by row. -/
noncomputable def maxAbs (n : Nat) (A : Mx) : ℝ := Mat.infNorm (n * n) fun p => A (p / n) (p % n)

/-! ## Two by two -/

open Classical in
/-- `eigen_decomposition` of a two by two matrix, E lines 25-76; the entry (0, 1) is not read but through `clone`. -/
noncomputable def eigen2 (eps : ℝ) (M : Mx) : Dec :=
  let shift := (M 0 0 + M 1 1) / 2
  let B := set M 0 1 (M 1 0)
  let B := set B 0 0 (B 0 0 - shift)
  let B := set B 1 1 (B 1 1 - shift)
  let scale := maxAbs 2 B
  let B := if scale > 0 then fun i j => B i j / scale else B
  let t0 := 1 / 2 * √((B 0 0 - B 1 1) * (B 0 0 - B 1 1) + 4 * (B 1 0 * B 1 0))
  let t1 := 1 / 2 * (B 0 0 + B 1 1)
  let e := upd (upd (fun _ => 0) 0 (t1 - t0)) 1 (t1 + t0)
  let E : Mx :=
    if e 1 - e 0 ≤ |e 1| * eps then identity
    else
      let B := forN 2 (fun B d => set B d d (B d d - e 1)) B
      let a2 := B 0 0 * B 0 0
      let c2 := B 1 1 * B 1 1
      let b2 := B 1 0 * B 1 0
      let E : Mx := fun _ _ => 0
      let E :=
        if a2 > c2 then
          let coeff := √(a2 + b2)
          set (set E 0 1 (-B 1 0 / coeff)) 1 1 (B 0 0 / coeff)
        else
          let coeff := √(c2 + b2)
          set (set E 0 1 (-B 1 1 / coeff)) 1 1 (B 1 0 / coeff)
      let c0 := Mat.orthogonal2 fun i => E i 1
      set (set E 0 0 (c0 0)) 1 0 (c0 1)
  ⟨fun i => e i * scale + shift, E⟩

/-! ## Three by three -/

/-- `mat(0, 0) -= v; mat(1, 1) -= v; mat(2, 2) -= v`. -/
def shift3 (A : Mx) (v : ℝ) : Mx :=
  let A := set A 0 0 (A 0 0 - v)
  let A := set A 1 1 (A 1 1 - v)
  set A 2 2 (A 2 2 - v)

/-- `col(mat, c)`. -/
def column (A : Mx) (c : Nat) : Store ℝ := fun i => A i c

/-- `for (d = 0; d != 3; ++d) eivecs(d, c) = v(d)`. -/
def setCol (E : Mx) (c : Nat) (v : Store ℝ) : Mx := forN 3 (fun E d => set E d c (v d)) E

open Classical in
/-- `extractKernel`, E lines 160-184: `eivecs` and the column returned.  The search starts at the lowest number; any negative number gives the same. -/
noncomputable def extractKernel (E A : Mx) (colNo : Nat) : Mx × Store ℝ :=
  let x := forN 3 (fun (x : ℝ × Nat) d => if |A d d| > x.1 then (|A d d|, d) else x) (-1, 0)
  let i0 := x.2
  let representative := column A i0
  let c0 := Mat.cross3 representative (column A ((i0 + 1) % 3))
  let n0 := Mat.l2NormSqr 3 c0
  let c1 := Mat.cross3 representative (column A ((i0 + 2) % 3))
  let n1 := Mat.l2NormSqr 3 c1
  if n0 > n1 then
    let coeff := √n0
    (setCol E colNo fun d => c0 d / coeff, representative)
  else
    let coeff := √n1
    (setCol E colNo fun d => c1 d / coeff, representative)

/-- `atan2(y, x)`. -/
noncomputable def atan2 (y x : ℝ) : ℝ := Complex.arg ⟨x, y⟩

/-- The eigenvalues, E lines 102-139. -/
noncomputable def roots3 (A : Mx) : Nat → ℝ :=
  let inv3 : ℝ := 1 / 3
  let sqrt3 := √3
  let c0 := A 0 0 * A 1 1 * A 2 2 + 2 * A 1 0 * A 2 0 * A 2 1 - A 0 0 * A 2 1 * A 2 1 - A 1 1 * A 2 0 * A 2 0 - A 2 2 * A 1 0 * A 1 0
  let c1 := A 0 0 * A 1 1 - A 1 0 * A 1 0 + A 0 0 * A 2 2 - A 2 0 * A 2 0 + A 1 1 * A 2 2 - A 2 1 * A 2 1
  let c2 := A 0 0 + A 1 1 + A 2 2
  let c23 := c2 * inv3
  let a3 := (c2 * c23 - c1) * inv3
  let a3 := max a3 0
  let halfb := 1 / 2 * (c0 + c23 * (2 * c23 * c23 - c1))
  let q := a3 * a3 * a3 - halfb * halfb
  let q := max q 0
  let rho := √a3
  let theta := atan2 (√q) halfb * inv3
  let cosTheta := Real.cos theta
  let sinTheta := Real.sin theta
  let e := fun _ => 0
  let e := upd e 0 (c23 - rho * (cosTheta + sqrt3 * sinTheta))
  let e := upd e 1 (c23 - rho * (cosTheta - sqrt3 * sinTheta))
  upd e 2 (c23 + 2 * rho * cosTheta)

open Classical in
/-- The eigenvectors, E lines 141-215, for the scaled matrix `A` and its eigenvalues `e`. -/
noncomputable def vectors3 (eps : ℝ) (A : Mx) (e : Nat → ℝ) : Mx :=
  if e 2 - e 0 ≤ eps then identity
  else
    let d0 := e 2 - e 1
    let d1 := e 1 - e 0
    let k := if d0 > d1 then 2 else 0
    let l := if d0 > d1 then 0 else 2
    let d0 := if d0 > d1 then d1 else d0
    let r := extractKernel (fun _ _ => 0) (shift3 A (e k)) k
    let E := setCol r.1 l r.2
    let E :=
      if d0 ≤ 2 * eps * d1 then
        let colL := column E l
        let t := Mat.normalized 3 (Mat.sub 3 colL (Mat.smul 3 colL (Mat.dot 3 (column E k) colL)))
        setCol E l t
      else (extractKernel E (shift3 A (e l)) l).1
    let c1 := Mat.normalized 3 (Mat.cross3 (column E 2) (column E 0))
    setCol E 1 c1

open Classical in
/-- `eigen_decomposition` of a three by three matrix, E lines 83-219. -/
noncomputable def eigen3 (eps : ℝ) (M : Mx) : Dec :=
  let shift := (M 0 0 + M 1 1 + M 2 2) / 3
  let A := shift3 M shift
  let scale := maxAbs 3 A
  let A := if scale > 0 then fun i j => A i j / scale else A
  let e := roots3 A
  let E := vectors3 eps A e
  ⟨fun i => e i * scale + shift, E⟩

/-! ## Other sizes -/

/-- The variables of the iteration, E lines 240-249. -/
structure St where
  S : Mx
  E : Mx
  e : Nat → ℝ
  ind : Nat → Nat
  changed : Nat → Bool
  state : Nat

/-- `max_S`, E lines 243-245. -/
noncomputable def maxS (n : Nat) (A : Mx) : ℝ := forN n (fun m i => forN n (fun m j => max m |A i j|) m) 0

open Classical in
/-- `maxind`, E lines 250-256: i goes from k + 2 to n - 1. -/
noncomputable def maxind (n : Nat) (S : Mx) (k : Nat) : Nat :=
  forN (n - (k + 2)) (fun m i => if |S k (k + 2 + i)| > |S k m| then k + 2 + i else m) (k + 1)

open Classical in
/-- `update`, E lines 257-267. -/
noncomputable def update (k : Nat) (t : ℝ) (x : St) : St :=
  let y := x.e k
  let e := upd x.e k (y + t)
  if x.changed k = true ∧ y = e k then { x with e := e, changed := upd x.changed k false, state := x.state - 1 }
  else if x.changed k = false ∧ y ≠ e k then { x with e := e, changed := upd x.changed k true, state := x.state + 1 }
  else { x with e := e }

/-- `rotate`, E lines 268-273. -/
def rotate (S : Mx) (k l i j : Nat) (s c : ℝ) : Mx :=
  let Skl := S k l
  let Sij := S i j
  let S := set S k l (c * Skl - s * Sij)
  set S i j (s * Skl + c * Sij)

/-- E lines 240-249 and 274-278. -/
noncomputable def start (n : Nat) (A : Mx) : St :=
  { S := A, E := identity, e := fun k => A k k, ind := maxind n A, changed := fun _ => true, state := n }

open Classical in
/-- The row of the pivot, E lines 280-282: k goes from 1 to n - 2. -/
noncomputable def pivotRow (n : Nat) (x : St) : Nat :=
  forN (n - 2) (fun m i => if |x.S (i + 1) (x.ind (i + 1))| > |x.S m (x.ind m)| then i + 1 else m) 0

/-- The changes of `S`, E lines 297 and 300-302. -/
def rotateAll (n : Nat) (S : Mx) (k l : Nat) (s c : ℝ) : Mx :=
  let S := set S k l 0
  let S := forN k (fun S i => rotate S i k i l s c) S
  let S := forN (l - (k + 1)) (fun S i => rotate S k (k + 1 + i) (k + 1 + i) l s c) S
  forN (n - (l + 1)) (fun S i => rotate S k (l + 1 + i) l (l + 1 + i) s c) S

/-- The change of `E`, E lines 303-307. -/
def rotateE (n : Nat) (E : Mx) (k l : Nat) (s c : ℝ) : Mx :=
  forN n (fun E i =>
    let Eik := E i k
    let Eil := E i l
    let E := set E i k (c * Eik - s * Eil)
    set E i l (s * Eik + c * Eil)) E

open Classical in
/-- A pass of the loop after the test of the pivot, E lines 287-309; `fresh` stands for a version that searches all rows again, not only k and
l. -/
noncomputable def pass (fresh : Bool) (n k l : Nat) (x : St) : St :=
  let p := x.S k l
  let y := (x.e l - x.e k) / 2
  let d := |y| + √(p * p + y * y)
  let r := √(p * p + d * d)
  let c := d / r
  let s := p / r
  let t := p * p / d
  let s' := if y < 0 then -s else s
  let t' := if y < 0 then -t else t
  let x := update k (-t') x
  let x := update l t' x
  let S := rotateAll n x.S k l s' c
  let E := rotateE n x.E k l s' c
  let ind := if fresh then maxind n S else upd (upd x.ind k (maxind n S k)) l (maxind n S l)
  { x with S := S, E := E, ind := ind }

/-- What `eigen_decomposition` can do. -/
inductive Res where
  /-- It returns. -/
  | ok (d : Dec)
  /-- It reads an entry out of range. -/
  | outOfRange
  /-- It divides 0 by 0. -/
  | nan
  /-- The bound on the passes is reached. -/
  | running

open Classical in
/-- The loop, E lines 279-310; `tol` is `max_S * 1e-11`. -/
noncomputable def loop (fresh : Bool) (n : Nat) (tol : ℝ) : Nat → St → Res
  | 0, _ => .running
  | fuel + 1, x =>
    if x.state = 0 then .ok ⟨x.e, x.E⟩
    else
      let k := pivotRow n x
      let l := x.ind k
      if ¬ (k < n ∧ l < n) then .outOfRange
      else if |x.S k l| < tol then .ok ⟨x.e, x.E⟩
      else
        let y := (x.e l - x.e k) / 2
        if |y| + √(x.S k l * x.S k l + y * y) = 0 then .nan
        else loop fresh n tol fuel (pass fresh n k l x)

/-- `eigen_decomposition` of a matrix with n rows, n ≠ 2, 3, E lines 228-312; `c` is 1e-11. -/
noncomputable def eigenN (fresh : Bool) (c : ℝ) (n fuel : Nat) (A : Mx) : Res := loop fresh n (maxS n A * c) fuel (start n A)

/-! ## Positive semidefinite -/

open Classical in
/-- `make_pd` after the decomposition, E lines 326-342. -/
noncomputable def makePd (n : Nat) (eps : ℝ) (d : Dec) : Mx :=
  let e := forN n (fun e i => if e i < eps then upd e i 0 else e) d.e
  forN n (fun A i => forN n (fun A j => forN n (fun A k => set A i k (A i k + d.E i j * e j * d.E k j)) A) A) fun _ _ => 0

end Verif.Eig
