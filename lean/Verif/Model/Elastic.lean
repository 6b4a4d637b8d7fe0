import Verif.Model.Eigen
import Mathlib.Analysis.SpecialFunctions.Log.Basic

/-!
Model of the elastic energies, their stresses and their tangents: `include/zensim/physics/ConstitutiveModel.hpp` ("C") and, in
`include/zensim/physics/constitutive_models`, `NeoHookean.hpp` ("N"), `FixedCorotated.h` ("X"), `StvkWithHencky.hpp` ("H"),
`EquationOfState.hpp` ("Q") and `AnisotropicArap.hpp` ("A").

Entries are real numbers: rounding is not modelled.  Component-wise operators of `vec` are functions of the component.  The singular value
decomposition is a parameter: U, S, V (see C76 for `qr_svd`).
-/
namespace Verif.Elastic

open Verif.Mat (forN Store)
open Verif.Rot (Mx set)

/-- `lame_parameters`, C lines 34-38: mu and lambda. -/
noncomputable def lameParameters (E nu : ℝ) : ℝ × ℝ := (1 / 2 * E / (1 + nu), E * nu / ((1 + nu) * (1 - 2 * nu)))

/-- `E_nu_from_lame_parameters`, C lines 39-44. -/
noncomputable def eNu (mu lam : ℝ) : ℝ × ℝ :=
  let lamMu := lam + mu
  (mu * (3 * lam + 2 * mu) / lamMu, lam / (2 * lamMu))

/-- A model in terms of the singular values, C lines 59-105: `psi_sigma`, `dpsi_dsigma`, `d2psi_dsigma2`, `Bij_neg_coeff`; the first argument is the
dimension. -/
structure Iso where
  psi : Nat → Store ℝ → ℝ
  dpsi : Nat → Store ℝ → Store ℝ
  d2psi : Nat → Store ℝ → Mx
  bij : Nat → Store ℝ → Store ℝ

/-- Writes `v` at (i, j) and (j, i). -/
def set2 (A : Mx) (i j : Nat) (v : ℝ) : Mx := set (set A j i v) i j v

/-! ## NeoHookean -/

/-- `NeoHookean`, N lines 20-94. -/
noncomputable def neoHookean (mu lam : ℝ) : Iso where
  psi n S :=
    let l := Real.log (Mat.prod n S)
    1 / 2 * mu * (Mat.l2NormSqr n S - n) - (mu - 1 / 2 * lam * l) * l
  dpsi n S :=
    let l := Real.log (Mat.prod n S)
    fun i => mu * (S i - 1 / S i) + lam * (1 / S i) * l
  d2psi n S :=
    let l := Real.log (Mat.prod n S)
    let S2inv : Store ℝ := fun i => 1 / (S i * S i)
    let m : Mx := fun _ _ => 0
    let m := set m 0 0 (mu * (1 + S2inv 0) - lam * S2inv 0 * (l - 1))
    let m := if n > 1 then set2 (set m 1 1 (mu * (1 + S2inv 1) - lam * S2inv 1 * (l - 1))) 0 1 (lam / (S 0 * S 1)) else m
    if n > 2 then
      set2 (set2 (set m 2 2 (mu * (1 + S2inv 2) - lam * S2inv 2 * (l - 1))) 0 2 (lam / (S 0 * S 2))) 1 2 (lam / (S 1 * S 2))
    else m
  bij n S :=
    let p := Mat.prod n S
    let c : Store ℝ := fun _ => 0
    if n = 2 then Mat.upd c 0 ((mu + (mu - lam * Real.log p) / p) * (1 / 2))
    else if n = 3 then
      let tmp := mu - lam * Real.log p
      let c := Mat.upd c 0 ((mu + tmp / (S 0 * S 1)) * (1 / 2))
      let c := Mat.upd c 1 ((mu + tmp / (S 1 * S 2)) * (1 / 2))
      Mat.upd c 2 ((mu + tmp / (S 2 * S 0)) * (1 / 2))
    else c

/-! ## FixedCorotated -/

/-- `S_prod_i`, X lines 34-44. -/
def sprod (n : Nat) (S : Store ℝ) : Store ℝ :=
  let r : Store ℝ := fun _ => 0
  if n = 1 then Mat.upd r 0 1
  else if n = 2 then Mat.upd (Mat.upd r 0 (S 1)) 1 (S 0)
  else if n = 3 then Mat.upd (Mat.upd (Mat.upd r 0 (S 1 * S 2)) 1 (S 0 * S 2)) 2 (S 0 * S 1)
  else r

/-- `FixedCorotated`, X lines 20-103. -/
noncomputable def fixedCorotated (mu lam : ℝ) : Iso where
  psi n S :=
    let m := Mat.prod n S - 1
    mu * Mat.l2NormSqr n (fun i => S i - 1) + 1 / 2 * lam * m * m
  dpsi n S := fun i => (mu + mu) * (S i - 1) + lam * (Mat.prod n S - 1) * sprod n S i
  d2psi n S :=
    let p := Mat.prod n S
    let q := sprod n S
    let mu2 := mu + mu
    let m : Mx := fun _ _ => 0
    if n = 1 then set m 0 0 1
    else if n = 2 then
      let m := set m 0 0 (mu2 + lam * q 0 * q 0)
      let m := set m 1 1 (mu2 + lam * q 1 * q 1)
      set2 m 0 1 (lam * ((p - 1) + q 0 * q 1))
    else if n = 3 then
      let m := set m 0 0 (mu2 + lam * q 0 * q 0)
      let m := set m 1 1 (mu2 + lam * q 1 * q 1)
      let m := set m 2 2 (mu2 + lam * q 2 * q 2)
      let m := set2 m 0 1 (lam * (S 2 * (p - 1) + q 0 * q 1))
      let m := set2 m 0 2 (lam * (S 1 * (p - 1) + q 0 * q 2))
      set2 m 1 2 (lam * (S 0 * (p - 1) + q 1 * q 2))
    else m
  bij n S :=
    let p := Mat.prod n S
    let c : Store ℝ := fun _ => 0
    if n = 2 then Mat.upd c 0 (mu - 1 / 2 * lam * (p - 1))
    else if n = 3 then
      let c := Mat.upd c 0 (mu - 1 / 2 * lam * S 2 * (p - 1))
      let c := Mat.upd c 1 (mu - 1 / 2 * lam * S 0 * (p - 1))
      Mat.upd c 2 (mu - 1 / 2 * lam * S 1 * (p - 1))
    else c

/-! ## StvkWithHencky -/

/-- `log_1px_over_x`, `ZpcMathUtils.hpp` lines 1745-1753. -/
noncomputable def log1pxOverX (eps x : ℝ) : ℝ :=
  open Classical in if |x| < eps then 1 - x / 2 + x * x / 3 - x * x * x / 4 else Real.log (1 + x) / x

/-- `diff_log_over_diff` and `diff_interlock_log_over_diff`, `ZpcMathUtils.hpp` lines 1759-1774. -/
noncomputable def diffLog (eps x y : ℝ) : ℝ := log1pxOverX eps (x / y - 1) / y
noncomputable def diffInterlock (eps x y logy : ℝ) : ℝ := logy - y * diffLog eps x y

open Classical in
/-- `StvkWithHencky`, H lines 20-104; `eps` is 1e-6. -/
noncomputable def stvk (eps mu lam : ℝ) : Iso where
  psi n S :=
    let l : Store ℝ := fun i => Real.log |S i|
    let t := Mat.sum n l
    mu * Mat.sum n (fun i => l i * l i) + 1 / 2 * lam * t * t
  dpsi n S :=
    let l : Store ℝ := fun i => Real.log |S i|
    let t := Mat.sum n l
    fun i => ((mu + mu) * l i + lam * t) / S i
  d2psi n S :=
    let l : Store ℝ := fun i => Real.log |S i|
    let t := Mat.sum n l
    let mu2 := mu + mu
    let u := 1 - t
    let m : Mx := fun _ _ => 0
    let m := set m 0 0 ((mu2 * (1 - l 0) + lam * u) / (S 0 * S 0))
    let m := if n > 1 then set2 (set m 1 1 ((mu2 * (1 - l 1) + lam * u) / (S 1 * S 1))) 0 1 (lam / (S 0 * S 1)) else m
    if n > 2 then set2 (set2 (set m 2 2 ((mu2 * (1 - l 2) + lam * u) / (S 2 * S 2))) 0 2 (lam / (S 0 * S 2))) 1 2 (lam / (S 1 * S 2)) else m
  bij n S :=
    let l : Store ℝ := fun i => Real.log |S i|
    let c : Store ℝ := fun _ => 0
    if n = 2 then
      let q := max (S 0 / S 1 - 1) (-1 + eps)
      let h := if |q| < eps then 1 else Real.log (1 + q) / q
      let t := h / S 1
      let z := l 1 - t * S 1
      Mat.upd c 0 (-(lam * (l 0 + l 1) + (mu + mu) * z) / Mat.prod n S * (1 / 2))
    else if n = 3 then
      let t := Mat.sum n l
      let mu2 := mu + mu
      let c := Mat.upd c 0 (-(lam * t + mu2 * diffInterlock eps (S 0) |S 1| (l 1)) / (S 0 * S 1) * (1 / 2))
      let c := Mat.upd c 1 (-(lam * t + mu2 * diffInterlock eps (S 1) |S 2| (l 2)) / (S 1 * S 2) * (1 / 2))
      Mat.upd c 2 (-(lam * t + mu2 * diffInterlock eps (S 0) |S 2| (l 2)) / (S 0 * S 2) * (1 / 2))
    else c

/-! ## The matrix functions of these models -/

/-- A singular value decomposition. -/
structure Svd where
  U : Mx
  S : Store ℝ
  V : Mx

/-- `psi`, C lines 112-115. -/
def Iso.energy (m : Iso) (n : Nat) (d : Svd) : ℝ := m.psi n d.S

/-- `first_piola`, C lines 121-125. -/
def Iso.piola (m : Iso) (n : Nat) (d : Svd) : Mx :=
  let e := m.dpsi n d.S
  Rot.mul n (fun i j => d.U i j * e j) (Rot.transpose d.V)

/-- `ComputeBij`, C lines 144-153; `clamp` is 1e-6. -/
noncomputable def computeBij (clamp : ℝ) (n : Nat) (S e c : Store ℝ) (i : Nat) : Mx :=
  let j := (i + 1) % n
  let left := c i
  let den := max (S i + S j) clamp
  let right := (e i + e j) / (den + den)
  set (set (set (set (fun _ _ => 0) 0 0 (left + right)) 0 1 (left - right)) 1 0 (left - right)) 1 1 (left + right)

/-- The sum of C lines 183-203 for the entry (ji, sr). -/
def entry3 (A B0 B1 B2 U V : Mx) (i j r s : Nat) : ℝ :=
  A 0 0 * U i 0 * V j 0 * U r 0 * V s 0 + A 0 1 * U i 0 * V j 0 * U r 1 * V s 1 + A 0 2 * U i 0 * V j 0 * U r 2 * V s 2
    + A 1 0 * U i 1 * V j 1 * U r 0 * V s 0 + A 1 1 * U i 1 * V j 1 * U r 1 * V s 1 + A 1 2 * U i 1 * V j 1 * U r 2 * V s 2
    + A 2 0 * U i 2 * V j 2 * U r 0 * V s 0 + A 2 1 * U i 2 * V j 2 * U r 1 * V s 1 + A 2 2 * U i 2 * V j 2 * U r 2 * V s 2
    + B0 0 0 * U i 0 * V j 1 * U r 0 * V s 1 + B0 0 1 * U i 0 * V j 1 * U r 1 * V s 0
    + B0 1 0 * U i 1 * V j 0 * U r 0 * V s 1 + B0 1 1 * U i 1 * V j 0 * U r 1 * V s 0
    + B1 0 0 * U i 1 * V j 2 * U r 1 * V s 2 + B1 0 1 * U i 1 * V j 2 * U r 2 * V s 1
    + B1 1 0 * U i 2 * V j 1 * U r 1 * V s 2 + B1 1 1 * U i 2 * V j 1 * U r 2 * V s 1
    + B2 1 1 * U i 0 * V j 2 * U r 0 * V s 2 + B2 1 0 * U i 0 * V j 2 * U r 2 * V s 0
    + B2 0 1 * U i 2 * V j 0 * U r 0 * V s 2 + B2 0 0 * U i 2 * V j 0 * U r 2 * V s 0

/-- The sum of C lines 216-223. -/
def entry2 (A B U V : Mx) (i j r s : Nat) : ℝ :=
  A 0 0 * U i 0 * V j 0 * U r 0 * V s 0 + A 0 1 * U i 0 * V j 0 * U r 1 * V s 1
    + B 0 0 * U i 0 * V j 1 * U r 0 * V s 1 + B 0 1 * U i 0 * V j 1 * U r 1 * V s 0
    + B 1 0 * U i 1 * V j 0 * U r 0 * V s 1 + B 1 1 * U i 1 * V j 0 * U r 1 * V s 0
    + A 1 0 * U i 1 * V j 1 * U r 0 * V s 0 + A 1 1 * U i 1 * V j 1 * U r 1 * V s 1

/-- The loops of C lines 176-205 and 209-225. -/
def fillSym (n : Nat) (f : Nat → Nat → Nat → Nat → ℝ) : Mx :=
  forN (n * n) (fun H ji =>
    let j := ji / n
    let i := ji - j * n
    forN (ji + 1) (fun H sr =>
      let s := sr / n
      let r := sr - s * n
      let v := f i j r s
      set (set H sr ji v) ji sr v) H) fun _ _ => 0

/-- `first_piola_derivative`, C lines 131-230; `proj` is the tolerance of `make_pd` if `project_SPD` is set.  With projection the one-dimensional case
calls `make_pd` for one by one matrices, see `Eig.eigenN_one_violated`; the model leaves it out. -/
noncomputable def Iso.tangent (m : Iso) (clamp : ℝ) (proj : Option ℝ) (n : Nat) (d : Svd) : Mx :=
  let e := m.dpsi n d.S
  let A := m.d2psi n d.S
  let pd3 : Mx → Mx := fun M => match proj with | none => M | some eps => Eig.makePd 3 eps (Eig.eigen3 eps M)
  let pd2 : Mx → Mx := fun M => match proj with | none => M | some eps => Eig.makePd 2 eps (Eig.eigen2 eps M)
  let A := if n = 3 then pd3 A else if n = 2 then pd2 A else A
  let B := fun i => pd2 (computeBij clamp n d.S e (m.bij n d.S) i)
  if n = 3 then fillSym 3 (entry3 A (B 0) (B 1) (B 2) d.U d.V)
  else if n = 2 then fillSym 2 (entry2 A (B 0) d.U d.V)
  else set (fun _ _ => 0) 0 0 (A 0 0)

/-! ## EquationOfState -/

/-- Q lines 20-41. -/
noncomputable def eosPsi (bulk J : ℝ) : ℝ :=
  let J2 := J * J
  let J6 := J2 * J2 * J2
  bulk * (1 / 6 / J6 + J)

noncomputable def eosPiola (bulk J : ℝ) : ℝ :=
  let J2 := J * J
  let J4 := J2 * J2
  let J7 := J4 * J2 * J
  bulk - bulk / J7

noncomputable def eosPiolaDerivative (bulk J : ℝ) : ℝ :=
  let J2 := J * J
  let J4 := J2 * J2
  let J8 := J4 * J4
  bulk * 7 / J8

/-- The constructor, Q lines 16-17: the bulk modulus and gamma, whose argument is not used. -/
noncomputable def eosNew (E nu _gamma : ℝ) : ℝ × ℝ := (E / (3 - 6 * nu), 7)

/-! ## Models in terms of invariants -/

/-- `vectorize`, `Vec.h` lines 392-407: column by column. -/
def vectorize (n : Nat) (A : Mx) : Store ℝ := fun p => A (p % n) (p / n)

/-- Value, gradient and Hessian of the second invariant, C lines 325-336. -/
def i2 (n : Nat) (F : Mx) : ℝ := forN n (fun r i => r + forN n (fun r k => r + F k i * F k i) 0) 0
def i2Grad (n : Nat) (F : Mx) : Store ℝ := vectorize n fun i j => F i j + F i j
def i2Hess (_n : Nat) : Mx := fun i j => (if i = j then 1 else 0) + if i = j then 1 else 0

/-- The third invariant, C lines 338-339: `determinant`, `Vec.h` (see `Mat.determinant_spec`). -/
def i3 (n : Nat) (F : Mx) : ℝ := Mat.determinant n fun p => F (p / n) (p % n)

/-- The columns that lines 340-342 of C read; none if one is out of range. -/
def i3Columns (n : Nat) (F : Mx) : Option (Store ℝ × Store ℝ × Store ℝ) :=
  if 2 < n then some (fun i => F i 0, fun i => F i 1, fun i => F i 2) else none

/-- The gradient, C lines 343-357. -/
def i3Grad (n : Nat) (F : Mx) : Store ℝ :=
  if n = 1 then Mat.write [1]
  else if n = 2 then Mat.write [F 1 1, -F 0 1, -F 1 0, F 0 0]
  else if n = 3 then
    let f0 : Store ℝ := fun i => F i 0
    let f1 : Store ℝ := fun i => F i 1
    let f2 : Store ℝ := fun i => F i 2
    let a := Mat.cross3 f1 f2
    let b := Mat.cross3 f2 f0
    let c := Mat.cross3 f0 f1
    Mat.write [a 0, a 1, a 2, b 0, b 1, b 2, c 0, c 1, c 2]
  else fun _ => 0

/-- Writes `s` times a 3 by 3 matrix at (a, b) of `H` and `t` times the matrix at (b, a). -/
def blocks (H : Mx) (a b : Nat) (s t : ℝ) (m : Store ℝ) : Mx :=
  forN 3 (fun H i => forN 3 (fun H j =>
    let H := set H (a + i) (b + j) (s * m (Mat.at2 3 i j))
    set H (b + i) (a + j) (t * m (Mat.at2 3 i j))) H) H

/-- The Hessian, C lines 358-388. -/
def i3Hess (n : Nat) (F : Mx) : Mx :=
  let z : Mx := fun _ _ => 0
  if n = 2 then fun i j => Mat.write [0, 0, 0, 1, 0, 0, -1, 0, 0, -1, 0, 0, 1, 0, 0, 0] (i * 4 + j)
  else if n = 3 then
    let H := blocks z 6 3 1 (-1) (Mat.crossMatrix fun i => F i 0)
    let H := blocks H 6 0 (-1) 1 (Mat.crossMatrix fun i => F i 1)
    blocks H 3 0 1 (-1) (Mat.crossMatrix fun i => F i 2)
  else z

/-- A model in terms of I1, I2, I3, C lines 457-495: `psi_I`, `dpsi_dI<i>`, `d2psi_dI2<i, i>`. -/
structure Inv where
  psi : Store ℝ → ℝ
  dpsi : Nat → Store ℝ → ℝ
  d2psi : Nat → Store ℝ → ℝ

/-- `NeoHookeanInvariant`, N lines 111-133: `dim` is the number of invariants, 3. -/
noncomputable def neoHookeanInvariant (mu lam : ℝ) : Inv where
  psi I :=
    let l := Real.log (I 2)
    1 / 2 * mu * (I 1 - 3) - (mu - 1 / 2 * lam * l) * l
  dpsi k I := if k = 1 then mu * (1 / 2) else if k = 2 then (lam * Real.log (I 2) - mu) / I 2 else 0
  d2psi k I := if k = 2 then (lam * (1 - Real.log (I 2)) + mu) / (I 2 * I 2) else 0

/-- `StableNeohookeanInvarient`, N lines 148-173. -/
noncomputable def stableNeoHookean (mu lam : ℝ) : Inv where
  psi I :=
    let m := I 2 - 1
    1 / 2 * mu * (I 1 - 3) - mu * m + 1 / 2 * lam * m * m
  dpsi k I := if k = 0 then 0 else if k = 1 then 1 / 2 * mu else -mu + lam * (I 2 - 1)
  d2psi k _ := if k = 2 then lam else 0

/-- The invariants; the first one, its gradient and its Hessian are parameters: the two models do not depend on it. -/
def invariants (n : Nat) (i1 : ℝ) (F : Mx) : Store ℝ := fun k => if k = 0 then i1 else if k = 1 then i2 n F else i3 n F

/-- `psi`, C lines 503-511. -/
def Inv.energy (m : Inv) (n : Nat) (i1 : ℝ) (F : Mx) : ℝ := m.psi (invariants n i1 F)

/-- `first_piola`, C lines 517-539. -/
def Inv.piola (m : Inv) (n : Nat) (i1 : ℝ) (g1 : Store ℝ) (F : Mx) : Mx :=
  let I := invariants n i1 F
  let res : Store ℝ := fun _ => 0
  let res : Store ℝ := fun p => res p + m.dpsi 0 I * g1 p
  let res : Store ℝ := fun p => res p + m.dpsi 1 I * i2Grad n F p
  let res : Store ℝ := fun p => res p + m.dpsi 2 I * i3Grad n F p
  fun i j => res (j * n + i)

/-- `first_piola_derivative` without projection, C lines 554-563. -/
def Inv.tangent (m : Inv) (n : Nat) (i1 : ℝ) (g1 : Store ℝ) (h1 : Mx) (F : Mx) : Mx :=
  let I := invariants n i1 F
  let H : Mx := fun _ _ => 0
  let H : Mx := fun p q => H p q + (m.d2psi 0 I * (g1 p * g1 q) + m.dpsi 0 I * h1 p q)
  let H : Mx := fun p q => H p q + (m.d2psi 1 I * (i2Grad n F p * i2Grad n F q) + m.dpsi 1 I * i2Hess n p q)
  fun p q => H p q + (m.d2psi 2 I * (i3Grad n F p * i3Grad n F q) + m.dpsi 2 I * i3Hess n F p q)

/-! ## The projected tangent of the stable model -/

/-- `eval_stretching_matrix`, N lines 181-197. -/
noncomputable def stretching (mu lam : ℝ) (J : ℝ) (S : Store ℝ) : Mx :=
  let A : Mx := fun _ _ => 0
  let A := set A 0 0 (mu + lam * J * J / S 0 / S 0)
  let A := set A 0 1 (S 2 * (lam * (2 * J - 1) - mu))
  let A := set A 0 2 (S 1 * (lam * (2 * J - 1) - mu))
  let A := set A 1 1 (mu + lam * J * J / S 1 / S 1)
  let A := set A 1 2 (S 0 * (lam * (2 * J - 1) - mu))
  let A := set A 2 2 (mu + lam * J * J / S 2 / S 2)
  let A := set A 1 0 (A 0 1)
  let A := set A 2 0 (A 0 2)
  set A 2 1 (A 1 2)

/-- The nine values, N lines 228-241. -/
def spdValues (mu lam J : ℝ) (S a : Store ℝ) : Store ℝ := Mat.write
  [a 0, a 1, a 2,
   mu * (1 - S 2) + S 2 * (lam * (J - 1)), mu * (1 - S 0) + S 0 * (lam * (J - 1)), mu * (1 - S 1) + S 1 * (lam * (J - 1)),
   mu - S 2 * (lam * (J - 1) - mu), mu - S 0 * (lam * (J - 1) - mu), mu - S 1 * (lam * (J - 1) - mu)]

/-- `Qs`, N lines 246-256: `mat3::init` gives the entry at position p, row by row. -/
noncomputable def spdQ (k : Nat) : Mx := fun i j =>
  let p := i * 3 + j
  let w := 1 / √2
  if k = 0 then if p = 0 then 1 else 0
  else if k = 1 then if p = 4 then 1 else 0
  else if k = 2 then if p = 8 then 1 else 0
  else if k = 3 then if p = 1 then -w else if p = 3 then w else 0
  else if k = 4 then if p = 5 then w else if p = 7 then -w else 0
  else if k = 5 then if p = 2 then w else if p = 6 then -w else 0
  else if k = 6 then if p = 1 then w else if p = 3 then w else 0
  else if k = 7 then if p = 5 then w else if p = 7 then w else 0
  else if p = 2 then w else if p = 6 then w else 0

/-- The nine vectors, N lines 257-292; `E` is the matrix of eigenvectors of the stretching matrix. -/
noncomputable def spdVector (U V E : Mx) (k : Nat) : Store ℝ :=
  let q := fun k => vectorize 3 (Rot.mul 3 (Rot.mul 3 U (spdQ k)) (Rot.transpose V))
  if k < 3 then fun p => forN 3 (fun r d => r + q d p * E d k) 0 else q k

/-- `do_first_piola_derivative_spd`, N lines 205-388; `eig` is `eigen_decomposition`. -/
noncomputable def stableSpd (mu lam : ℝ) (eig : Mx → Eig.Dec) (F : Mx) (d : Svd) : Mx :=
  let J := i3 3 F
  let A := stretching mu lam J d.S
  let e := eig A
  let vals := spdValues mu lam J d.S e.e
  let vecs := spdVector d.U d.V e.E
  let vals : Store ℝ := fun k => |vals k|
  forN 9 (fun H k => fun p q => H p q + vals k * (vecs k p * vecs k q)) fun _ _ => 0

/-! ## AnisotropicArap -/

/-- The fifth invariant, C lines 435-437. -/
def i5 (n : Nat) (F : Mx) (a : Store ℝ) : ℝ :=
  let Fa : Store ℝ := fun i => forN n (fun r j => r + F i j * a j) 0
  Mat.dot n Fa Fa

/-- `do_psi`, A lines 39-43; `s` is `I4_sign`, which is -1, 0 or 1. -/
noncomputable def arapPsi (mu s : ℝ) (n : Nat) (F : Mx) (a : Store ℝ) : ℝ :=
  let v := √(i5 n F a) - s
  1 / 2 * mu * v * v

/-- `do_first_piola`, A lines 50-57. -/
noncomputable def arapPiola (mu s : ℝ) (n : Nat) (F : Mx) (a : Store ℝ) : Mx :=
  let coeff := 1 / 2 * mu * (1 - s / √(i5 n F a))
  Rot.mul n (fun i j => coeff * F i j) fun i j => a i * a j

end Verif.Elastic
