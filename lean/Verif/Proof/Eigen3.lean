import Verif.Model.Eigen
import Verif.Proof.GivensSvd
import Mathlib.Analysis.Matrix.Spectrum

/-! Helper lemmas for C77: three by three matrices. -/
namespace Verif.Eig

open Matrix
open Verif.Mat (forN forN_succ forN_zero forN_inv Store)
open Verif.Rot (Mx identity mx frobSq)

/-- The trace, the sum of the principal minors and the determinant in terms of the lower triangle. -/
def tr3 (A : Mx) : ℝ := A 0 0 + A 1 1 + A 2 2
def mi3 (A : Mx) : ℝ := A 0 0 * A 1 1 - A 1 0 * A 1 0 + A 0 0 * A 2 2 - A 2 0 * A 2 0 + A 1 1 * A 2 2 - A 2 1 * A 2 1
def de3 (A : Mx) : ℝ :=
  A 0 0 * A 1 1 * A 2 2 + 2 * A 1 0 * A 2 0 * A 2 1 - A 0 0 * A 2 1 * A 2 1 - A 1 1 * A 2 0 * A 2 0 - A 2 2 * A 1 0 * A 1 0

structure Sym3 (A : Mx) : Prop where
  h01 : A 0 1 = A 1 0
  h02 : A 0 2 = A 2 0
  h12 : A 1 2 = A 2 1

/-- Three numbers are the zeros of the characteristic polynomial. -/
structure Roots (A : Mx) (x y z : ℝ) : Prop where
  s1 : x + y + z = tr3 A
  s2 : x * y + x * z + y * z = mi3 A
  s3 : x * y * z = de3 A

theorem exists_roots {A : Mx} (h : Sym3 A) : ∃ x y z, Roots A x y z := by
  have hh : (mx 3 A).IsHermitian := by
    funext i j
    fin_cases i <;> fin_cases j <;> simp [Matrix.conjTranspose, mx, h.h01, h.h02, h.h12]
  have hp : ∀ t : ℝ, (Matrix.scalar (Fin 3) t - mx 3 A).det = (t - hh.eigenvalues 0) * (t - hh.eigenvalues 1) * (t - hh.eigenvalues 2) := by
    intro t
    rw [← Matrix.eval_charpoly, hh.charpoly_eq, Fin.prod_univ_three]
    simp
  have hd : ∀ t : ℝ, (Matrix.scalar (Fin 3) t - mx 3 A).det = t ^ 3 - tr3 A * t ^ 2 + mi3 A * t - de3 A := by
    intro t
    rw [Matrix.det_fin_three]
    simp [mx, h.h01, h.h02, h.h12, tr3, mi3, de3]
    ring
  have k0 := (hp 0).symm.trans (hd 0)
  have k1 := (hp 1).symm.trans (hd 1)
  have k2 := (hp (-1)).symm.trans (hd (-1))
  generalize hh.eigenvalues 0 = x at *
  generalize hh.eigenvalues 1 = y at *
  generalize hh.eigenvalues 2 = z at *
  refine ⟨x, y, z, ?_, ?_, ?_⟩
  · linear_combination k0 - 1 / 2 * k1 - 1 / 2 * k2
  · linear_combination 1 / 2 * k1 - 1 / 2 * k2
  · linear_combination -k0

/-- The eigenvalues of the code. -/
theorem roots3_spec {A : Mx} (h : Sym3 A) : Roots A (roots3 A 0) (roots3 A 1) (roots3 A 2) ∧ roots3 A 0 ≤ roots3 A 1 ∧ roots3 A 1 ≤ roots3 A 2 := by
  obtain ⟨x, y, z, hr⟩ := exists_roots h
  obtain ⟨a, ha⟩ : ∃ a, a = (tr3 A * (tr3 A * (1 / 3)) - mi3 A) * (1 / 3) := ⟨_, rfl⟩
  obtain ⟨b, hb⟩ : ∃ b, b = 1 / 2 * (de3 A + tr3 A * (1 / 3) * (2 * (tr3 A * (1 / 3)) * (tr3 A * (1 / 3)) - mi3 A)) := ⟨_, rfl⟩
  have ha0 : 0 ≤ a := by
    rw [ha, ← hr.s1, ← hr.s2]
    nlinarith [sq_nonneg (x - y), sq_nonneg (y - z), sq_nonneg (x - z)]
  have hq0 : 0 ≤ a * a * a - b * b := by
    have : a * a * a - b * b = ((x - y) * (y - z) * (z - x)) ^ 2 / 108 := by
      rw [ha, hb, ← hr.s1, ← hr.s2, ← hr.s3]; ring
    rw [this]; positivity
  obtain ⟨th, hth⟩ : ∃ th, th = atan2 (√(a * a * a - b * b)) b * (1 / 3) := ⟨_, rfl⟩
  have e0 : roots3 A 0 = tr3 A * (1 / 3) - √a * (Real.cos th + √3 * Real.sin th) := by
    rw [hth, ← max_eq_left hq0, ← max_eq_left ha0, ha, hb]; rfl
  have e1 : roots3 A 1 = tr3 A * (1 / 3) - √a * (Real.cos th - √3 * Real.sin th) := by
    rw [hth, ← max_eq_left hq0, ← max_eq_left ha0, ha, hb]; rfl
  have e2 : roots3 A 2 = tr3 A * (1 / 3) + 2 * √a * Real.cos th := by
    rw [hth, ← max_eq_left hq0, ← max_eq_left ha0, ha, hb]; rfl
  -- the angle
  have harg : atan2 (√(a * a * a - b * b)) b = 3 * th := by rw [hth]; ring
  have th0 : 0 ≤ th := by
    have : 0 ≤ atan2 (√(a * a * a - b * b)) b := Complex.arg_nonneg_iff.2 (Real.sqrt_nonneg _)
    rw [hth]; linarith
  have th1 : th ≤ Real.pi / 3 := by
    have : atan2 (√(a * a * a - b * b)) b ≤ Real.pi := Complex.arg_le_pi _
    rw [hth]; linarith
  have r2 : √a * √a = a := Real.mul_self_sqrt ha0
  have hnorm : ‖(⟨b, √(a * a * a - b * b)⟩ : ℂ)‖ = √a * √a * √a := by
    rw [Complex.norm_eq_sqrt_sq_add_sq]
    simp only
    rw [Real.sq_sqrt hq0]
    have : b ^ 2 + (a * a * a - b * b) = (√a * √a * √a) * (√a * √a * √a) := by
      rw [r2]; linear_combination (-(a * a)) * r2
    rw [this, Real.sqrt_mul_self]
    positivity
  have hcos : √a * √a * √a * Real.cos (3 * th) = b := by
    have := Complex.norm_mul_cos_arg (⟨b, √(a * a * a - b * b)⟩ : ℂ)
    rw [hnorm] at this
    rw [← harg]; exact this
  rw [Real.cos_three_mul] at hcos
  have hsc := Real.sin_sq_add_cos_sq th
  have h3 : √3 * √3 = (3 : ℝ) := Real.mul_self_sqrt (by norm_num)
  have hs0 : 0 ≤ Real.sin th := Real.sin_nonneg_of_nonneg_of_le_pi th0 (by linarith [Real.pi_pos])
  have hs1 : 0 ≤ √3 * Real.cos th - Real.sin th := by
    have : 0 ≤ Real.sin (Real.pi / 3 - th) := Real.sin_nonneg_of_nonneg_of_le_pi (by linarith) (by linarith [Real.pi_pos])
    rw [Real.sin_sub, Real.sin_pi_div_three, Real.cos_pi_div_three] at this
    linarith
  have hr0 : 0 ≤ √a := Real.sqrt_nonneg _
  have h30 : 0 ≤ √(3 : ℝ) := Real.sqrt_nonneg _
  rw [e0, e1, e2]
  generalize Real.cos th = c at *
  generalize Real.sin th = s at *
  generalize √a = r at *
  generalize √(3 : ℝ) = w at *
  obtain ⟨T, hT⟩ : ∃ T, T = tr3 A := ⟨_, rfl⟩
  rw [← hT] at ha hb ⊢
  refine ⟨⟨?_, ?_, ?_⟩, ?_, ?_⟩
  · rw [← hT]; ring
  · have : mi3 A = T * T / 3 - 3 * a := by rw [ha]; ring
    rw [this, ← r2]
    linear_combination (-3 * r * r) * hsc + (-(r * r * s * s)) * h3
  · have : de3 A = 2 * b - T / 3 * (2 * (T / 3) * (T / 3) - (T * T / 3 - 3 * (r * r))) := by
      have h1 : mi3 A = T * T / 3 - 3 * (r * r) := by rw [r2, ha]; ring
      rw [← h1, hb]; ring
    rw [this, ← hcos]
    linear_combination (-(T * r * r) - 6 * r * r * r * c) * hsc + (-(T / 3 * r * r * s * s) - 2 * r * r * r * c * s * s) * h3
  · nlinarith [mul_nonneg (mul_nonneg hr0 h30) hs0]
  · have : r * w * (w * c - s) = r * (3 * c - w * s) := by linear_combination r * c * h3
    linarith [mul_nonneg (mul_nonneg hr0 h30) hs1]

/-! ## The kernel of a singular matrix -/

def dot3 (u v : Store ℝ) : ℝ := u 0 * v 0 + u 1 * v 1 + u 2 * v 2

/-- A times v. -/
def ap (A : Mx) (v : Store ℝ) : Store ℝ := fun i => A i 0 * v 0 + A i 1 * v 1 + A i 2 * v 2

theorem minor_zero {p q r x y z : ℝ} (hp : p ≠ 0) (h1 : y * x - p * z = 0) (h2 : p * q - x * x = 0) (h3 : y * y - p * r = 0) :
    p * q - x * x + p * r - y * y + q * r - z * z = 0 := by
  have : p * p * (p * q - x * x + p * r - y * y + q * r - z * z) = 0 := by
    linear_combination (p * p + y * y) * h2 + (-(p * p) - p * q) * h3 + (y * x + p * z) * h1
  exact (mul_eq_zero.1 this).resolve_left (mul_ne_zero hp hp)

theorem argmax3 (A : Mx) : ∃ i0, (forN 3 (fun (x : ℝ × Nat) d => if |A d d| > x.1 then (|A d d|, d) else x) (-1, 0)).2 = i0 ∧
    (i0 = 0 ∨ i0 = 1 ∨ i0 = 2) ∧ |A 0 0| ≤ |A i0 i0| ∧ |A 1 1| ≤ |A i0 i0| ∧ |A 2 2| ≤ |A i0 i0| := by
  refine ⟨_, rfl, ?_⟩
  have h := forN_inv (P := fun d (x : ℝ × Nat) => (d = 0 → x.1 = -1) ∧ (0 < d → x.2 < d ∧ x.1 = |A x.2 x.2| ∧ ∀ j, j < d → |A j j| ≤ x.1)) (n := 3)
    (f := fun (x : ℝ × Nat) d => if |A d d| > x.1 then (|A d d|, d) else x) (s := (-1, 0)) ⟨fun _ => rfl, fun h => absurd h (lt_irrefl 0)⟩ ?_
  · obtain ⟨h1, h2, h3⟩ := h.2 (by decide)
    rw [← h2]
    exact ⟨by omega, h3 0 (by decide), h3 1 (by decide), h3 2 (by decide)⟩
  · rintro d - x ⟨h1, h2⟩
    refine ⟨fun h => absurd h (Nat.succ_ne_zero d), fun _ => ?_⟩
    split
    · rename_i hlt
      refine ⟨Nat.lt_succ_self d, rfl, fun j hj => ?_⟩
      rcases Nat.lt_or_ge j d with g | g
      · exact ((h2 (by omega)).2.2 j g).trans hlt.le
      · rw [show j = d by omega]
    · rename_i hlt
      have hd : 0 < d := by
        rcases Nat.eq_zero_or_pos d with h | h
        · rw [h1 h] at hlt
          exact absurd (lt_of_lt_of_le (by norm_num : (-1 : ℝ) < 0) (abs_nonneg _)) hlt
        · exact h
      obtain ⟨g1, g2, g3⟩ := h2 hd
      refine ⟨by omega, g2, fun j hj => ?_⟩
      rcases Nat.lt_or_ge j d with g | g
      · exact g3 j g
      · rw [show j = d by omega]; exact not_lt.1 hlt

theorem setCol_apply (E : Mx) (c : Nat) (v : Store ℝ) (i j : Nat) : setCol E c v i j = if i < 3 ∧ j = c then v i else E i j := by
  simp only [setCol, forN_succ, forN_zero, Rot.set]
  rcases i with _ | _ | _ | i <;> simp

/-- A vector of the kernel, scaled to unit length. -/
theorem unit_of_kernel {A : Mx} {c : Store ℝ} (hc : ∀ i, i < 3 → ap A c i = 0) (hn : 0 < dot3 c c) :
    dot3 (fun d => c d / √(dot3 c c)) (fun d => c d / √(dot3 c c)) = 1 ∧ ∀ i, i < 3 → ap A (fun d => c d / √(dot3 c c)) i = 0 := by
  have hs : 0 < √(dot3 c c) := Real.sqrt_pos.2 hn
  have hss : √(dot3 c c) * √(dot3 c c) = dot3 c c := Real.mul_self_sqrt hn.le
  constructor
  · have : dot3 (fun d => c d / √(dot3 c c)) (fun d => c d / √(dot3 c c)) = dot3 c c / (√(dot3 c c) * √(dot3 c c)) := by
      simp only [dot3]; rw [div_mul_div_comm, div_mul_div_comm, div_mul_div_comm, ← add_div, ← add_div]
    rw [this, hss, div_self hn.ne']
  · intro i hi
    have : ap A (fun d => c d / √(dot3 c c)) i = ap A c i / √(dot3 c c) := by
      simp only [ap]; rw [add_div, add_div, mul_div_assoc, mul_div_assoc, mul_div_assoc]
    rw [this, hc i hi, zero_div]

theorem l2NormSqr_three (c : Store ℝ) : Mat.l2NormSqr 3 c = dot3 c c := by
  simp [Mat.l2NormSqr, forN_succ, forN_zero, dot3]

theorem extractKernel_spec {A : Mx} (h : Sym3 A) (hd : de3 A = 0) (hm : mi3 A ≠ 0) (ht : tr3 A ≠ 0) (E : Mx) (k : Nat) :
    ∃ (v : Store ℝ) (i0 : Nat), extractKernel E A k = (setCol E k v, column A i0) ∧ i0 < 3 ∧
      dot3 v v = 1 ∧ (∀ i, i < 3 → ap A v i = 0) ∧ 0 < dot3 (column A i0) (column A i0) := by
  obtain ⟨i0, hi, hi0, m0, m1, m2⟩ := argmax3 A
  have hp : A i0 i0 ≠ 0 := by
    intro h0
    rw [h0, abs_zero] at m0 m1 m2
    apply ht
    rw [tr3, abs_nonpos_iff.1 m0, abs_nonpos_iff.1 m1, abs_nonpos_iff.1 m2]; ring
  obtain ⟨c0, hc0⟩ : ∃ c, c = Mat.cross3 (column A i0) (column A ((i0 + 1) % 3)) := ⟨_, rfl⟩
  obtain ⟨c1, hc1⟩ : ∃ c, c = Mat.cross3 (column A i0) (column A ((i0 + 2) % 3)) := ⟨_, rfl⟩
  have hE : extractKernel E A k = if dot3 c0 c0 > dot3 c1 c1 then (setCol E k fun d => c0 d / √(dot3 c0 c0), column A i0)
      else (setCol E k fun d => c1 d / √(dot3 c1 c1), column A i0) := by
    rw [extractKernel]
    simp only [hi]
    rw [← hc0, ← hc1, l2NormSqr_three, l2NormSqr_three]
  have cross : ∀ u v : Store ℝ, Mat.cross3 u v 0 = u 1 * v 2 - u 2 * v 1 ∧ Mat.cross3 u v 1 = u 2 * v 0 - u 0 * v 2 ∧
      Mat.cross3 u v 2 = u 0 * v 1 - u 1 * v 0 := fun u v => ⟨rfl, rfl, rfl⟩
  have ker : (∀ i, i < 3 → ap A c0 i = 0) ∧ (∀ i, i < 3 → ap A c1 i = 0) ∧ (dot3 c0 c0 = 0 → dot3 c1 c1 = 0 → False) := by
    have sq3 : ∀ a b c : ℝ, a * a + b * b + c * c = 0 → a = 0 ∧ b = 0 ∧ c = 0 := by
      intro a b c hs
      have ha : a * a = 0 := by nlinarith [mul_self_nonneg a, mul_self_nonneg b, mul_self_nonneg c]
      have hb : b * b = 0 := by nlinarith [mul_self_nonneg a, mul_self_nonneg b, mul_self_nonneg c]
      have hc : c * c = 0 := by nlinarith [mul_self_nonneg a, mul_self_nonneg b, mul_self_nonneg c]
      exact ⟨mul_self_eq_zero.1 ha, mul_self_eq_zero.1 hb, mul_self_eq_zero.1 hc⟩
    have lt3 : ∀ i : Nat, i < 3 → i = 0 ∨ i = 1 ∨ i = 2 := by intro i hi; omega
    rw [de3] at hd
    rw [mi3] at hm
    obtain ⟨x0, x1, x2⟩ := cross (column A i0) (column A ((i0 + 1) % 3))
    obtain ⟨y0, y1, y2⟩ := cross (column A i0) (column A ((i0 + 2) % 3))
    rw [← hc0] at x0 x1 x2
    rw [← hc1] at y0 y1 y2
    clear hi hE hc0 hc1
    rcases hi0 with rfl | rfl | rfl
    · simp only [column, h.h01, h.h02, h.h12, show (0 + 1) % 3 = 1 from rfl, show (0 + 2) % 3 = 2 from rfl] at x0 x1 x2 y0 y1 y2
      refine ⟨fun i hi => ?_, fun i hi => ?_, fun z0 z1 => ?_⟩
      · simp only [ap, x0, x1, x2]
        rcases lt3 i hi with rfl | rfl | rfl <;> (try simp only [h.h01, h.h02, h.h12])
        · ring
        · ring
        · linear_combination hd
      · simp only [ap, y0, y1, y2]
        rcases lt3 i hi with rfl | rfl | rfl <;> (try simp only [h.h01, h.h02, h.h12])
        · ring
        · linear_combination (-1 : ℝ) * hd
        · ring
      · obtain ⟨-, u1, u2⟩ := sq3 _ _ _ z0
        obtain ⟨-, w1, -⟩ := sq3 _ _ _ z1
        apply hm
        linear_combination minor_zero hp (by linear_combination u1 - x1 : A 2 0 * A 1 0 - A 0 0 * A 2 1 = 0)
          (by linear_combination u2 - x2 : A 0 0 * A 1 1 - A 1 0 * A 1 0 = 0) (by linear_combination w1 - y1 : A 2 0 * A 2 0 - A 0 0 * A 2 2 = 0)
    · simp only [column, h.h01, h.h02, h.h12, show (1 + 1) % 3 = 2 from rfl, show (1 + 2) % 3 = 0 from rfl] at x0 x1 x2 y0 y1 y2
      refine ⟨fun i hi => ?_, fun i hi => ?_, fun z0 z1 => ?_⟩
      · simp only [ap, x0, x1, x2]
        rcases lt3 i hi with rfl | rfl | rfl <;> (try simp only [h.h01, h.h02, h.h12])
        · linear_combination hd
        · ring
        · ring
      · simp only [ap, y0, y1, y2]
        rcases lt3 i hi with rfl | rfl | rfl <;> (try simp only [h.h01, h.h02, h.h12])
        · ring
        · ring
        · linear_combination (-1 : ℝ) * hd
      · obtain ⟨u0, -, u2⟩ := sq3 _ _ _ z0
        obtain ⟨-, -, w2⟩ := sq3 _ _ _ z1
        apply hm
        linear_combination minor_zero hp (by linear_combination u2 - x2 : A 1 0 * A 2 1 - A 1 1 * A 2 0 = 0)
          (by linear_combination u0 - x0 : A 1 1 * A 2 2 - A 2 1 * A 2 1 = 0) (by linear_combination w2 - y2 : A 1 0 * A 1 0 - A 1 1 * A 0 0 = 0)
    · simp only [column, h.h01, h.h02, h.h12, show (2 + 1) % 3 = 0 from rfl, show (2 + 2) % 3 = 1 from rfl] at x0 x1 x2 y0 y1 y2
      refine ⟨fun i hi => ?_, fun i hi => ?_, fun z0 z1 => ?_⟩
      · simp only [ap, x0, x1, x2]
        rcases lt3 i hi with rfl | rfl | rfl <;> (try simp only [h.h01, h.h02, h.h12])
        · ring
        · linear_combination hd
        · ring
      · simp only [ap, y0, y1, y2]
        rcases lt3 i hi with rfl | rfl | rfl <;> (try simp only [h.h01, h.h02, h.h12])
        · linear_combination (-1 : ℝ) * hd
        · ring
        · ring
      · obtain ⟨u0, u1, -⟩ := sq3 _ _ _ z0
        obtain ⟨w0, -, -⟩ := sq3 _ _ _ z1
        apply hm
        linear_combination minor_zero hp (by linear_combination u0 - x0 : A 2 1 * A 2 0 - A 2 2 * A 1 0 = 0)
          (by linear_combination u1 - x1 : A 2 2 * A 0 0 - A 2 0 * A 2 0 = 0) (by linear_combination w0 - y0 : A 2 1 * A 2 1 - A 2 2 * A 1 1 = 0)
  obtain ⟨k0, k1, kz⟩ := ker
  have nn : ∀ c : Store ℝ, 0 ≤ dot3 c c := fun c => by
    simp only [dot3]; nlinarith [mul_self_nonneg (c 0), mul_self_nonneg (c 1), mul_self_nonneg (c 2)]
  have hrep : 0 < dot3 (column A i0) (column A i0) := by
    have hpp : 0 < A i0 i0 * A i0 i0 := lt_of_le_of_ne (mul_self_nonneg _) (mul_self_ne_zero.2 hp).symm
    simp only [dot3, column]
    rcases hi0 with rfl | rfl | rfl <;> nlinarith [mul_self_nonneg (A 0 0), mul_self_nonneg (A 1 0), mul_self_nonneg (A 2 0), mul_self_nonneg (A 0 1),
      mul_self_nonneg (A 1 1), mul_self_nonneg (A 2 1), mul_self_nonneg (A 0 2), mul_self_nonneg (A 1 2), mul_self_nonneg (A 2 2)]
  by_cases hlt : dot3 c0 c0 > dot3 c1 c1
  · obtain ⟨u1, u2⟩ := unit_of_kernel k0 ((nn c1).trans_lt hlt)
    exact ⟨_, i0, by rw [hE, if_pos hlt], by omega, u1, u2, hrep⟩
  · have : 0 < dot3 c1 c1 := by
      rcases (nn c1).eq_or_lt with hz | hz
      · exact (kz (le_antisymm (by rw [hz]; exact not_lt.1 hlt) (nn c0)) hz.symm).elim
      · exact hz
    obtain ⟨u1, u2⟩ := unit_of_kernel k1 this
    exact ⟨_, i0, by rw [hE, if_neg hlt], by omega, u1, u2, hrep⟩

/-! ## The eigenvectors -/

theorem shift3_apply (A : Mx) (t : ℝ) (i j : Nat) (hi : i < 3) : shift3 A t i j = if i = j then A i j - t else A i j := by
  simp only [shift3, Rot.set]
  rcases i with _ | _ | _ | i
  · rcases j with _ | _ | _ | j <;> simp
  · rcases j with _ | _ | _ | j <;> simp
  · rcases j with _ | _ | _ | j <;> simp
  · omega

theorem shift3_sym {A : Mx} (h : Sym3 A) (t : ℝ) : Sym3 (shift3 A t) := ⟨h.h01, h.h02, h.h12⟩

theorem shift3_roots {A : Mx} {x y z : ℝ} (h : Roots A x y z) (t : ℝ) : Roots (shift3 A t) (x - t) (y - t) (z - t) := by
  obtain ⟨s1, s2, s3⟩ := h
  have e : (∀ i, i < 3 → shift3 A t i i = A i i - t) ∧ shift3 A t 1 0 = A 1 0 ∧ shift3 A t 2 0 = A 2 0 ∧ shift3 A t 2 1 = A 2 1 :=
    ⟨fun i hi => by rw [shift3_apply A t i i hi, if_pos rfl], rfl, rfl, rfl⟩
  obtain ⟨ed, e10, e20, e21⟩ := e
  have d0 := ed 0 (by decide)
  have d1 := ed 1 (by decide)
  have d2 := ed 2 (by decide)
  simp only [tr3] at s1
  simp only [mi3] at s2
  simp only [de3] at s3
  refine ⟨?_, ?_, ?_⟩
  · simp only [tr3, d0, d1, d2]; linear_combination s1
  · simp only [mi3, d0, d1, d2, e10, e20, e21]; linear_combination s2 - 2 * t * s1
  · simp only [de3, d0, d1, d2, e10, e20, e21]; linear_combination s3 - t * s2 + t ^ 2 * s1

theorem Roots.swap {A : Mx} {x y z : ℝ} (h : Roots A x y z) : Roots A z y x :=
  ⟨by linear_combination h.s1, by linear_combination h.s2, by linear_combination h.s3⟩

theorem cayley {A : Mx} (h : Sym3 A) {x y z : ℝ} (hr : Roots A x y z) (i j : Nat) (hi : i < 3) (hj : j < 3) :
    ap (shift3 A y) (ap (shift3 A z) (column (shift3 A x) j)) i = 0 := by
  obtain ⟨s1, s2, s3⟩ := hr
  simp only [tr3] at s1
  simp only [mi3] at s2
  simp only [de3] at s3
  have hi : i = 0 ∨ i = 1 ∨ i = 2 := by omega
  have hj : j = 0 ∨ j = 1 ∨ j = 2 := by omega
  rcases hi with rfl | rfl | rfl <;> rcases hj with rfl | rfl | rfl <;>
    simp only [ap, column, shift3_apply _ _ _ _ (by decide : 0 < 3), shift3_apply _ _ _ _ (by decide : 1 < 3),
      shift3_apply _ _ _ _ (by decide : 2 < 3), if_true, show ((0 : Nat) = 1) = False by simp, show ((0 : Nat) = 2) = False by simp,
      show ((1 : Nat) = 0) = False by simp, show ((1 : Nat) = 2) = False by simp, show ((2 : Nat) = 0) = False by simp,
      show ((2 : Nat) = 1) = False by simp, if_false, h.h01, h.h02, h.h12]
  · linear_combination (-(A 0 0 * A 0 0 + A 1 0 * A 1 0 + A 2 0 * A 2 0)) * s1 + A 0 0 * s2 - s3
  · linear_combination (-(A 0 0 * A 1 0 + A 1 0 * A 1 1 + A 2 0 * A 2 1)) * s1 + A 1 0 * s2
  · linear_combination (-(A 0 0 * A 2 0 + A 1 0 * A 2 1 + A 2 0 * A 2 2)) * s1 + A 2 0 * s2
  · linear_combination (-(A 0 0 * A 1 0 + A 1 0 * A 1 1 + A 2 0 * A 2 1)) * s1 + A 1 0 * s2
  · linear_combination (-(A 1 0 * A 1 0 + A 1 1 * A 1 1 + A 2 1 * A 2 1)) * s1 + A 1 1 * s2 - s3
  · linear_combination (-(A 1 0 * A 2 0 + A 1 1 * A 2 1 + A 2 1 * A 2 2)) * s1 + A 2 1 * s2
  · linear_combination (-(A 0 0 * A 2 0 + A 1 0 * A 2 1 + A 2 0 * A 2 2)) * s1 + A 2 0 * s2
  · linear_combination (-(A 1 0 * A 2 0 + A 1 1 * A 2 1 + A 2 1 * A 2 2)) * s1 + A 2 1 * s2
  · linear_combination (-(A 2 0 * A 2 0 + A 2 1 * A 2 1 + A 2 2 * A 2 2)) * s1 + A 2 2 * s2 - s3

theorem ap_sym {A : Mx} (h : Sym3 A) (u v : Store ℝ) : dot3 u (ap A v) = dot3 (ap A u) v := by
  simp only [dot3, ap, h.h01, h.h02, h.h12]; ring

theorem ap_shift (A : Mx) (t : ℝ) (v : Store ℝ) (i : Nat) (hi : i < 3) : ap (shift3 A t) v i = ap A v i - t * v i := by
  have hi' : i = 0 ∨ i = 1 ∨ i = 2 := by omega
  simp only [ap, shift3_apply _ _ _ _ hi]
  rcases hi' with rfl | rfl | rfl <;> simp <;> ring

/-- If x = (A - z) u is an eigenvector for y, it is no longer than |y - z| times u. -/
theorem residual_le {A : Mx} (h : Sym3 A) {y z : ℝ} {u x : Store ℝ} (hu : dot3 u u = 1) (hx : ∀ i, i < 3 → x i = ap (shift3 A z) u i)
    (hz : ∀ i, i < 3 → ap (shift3 A y) x i = 0) : dot3 x x ≤ (y - z) ^ 2 := by
  have e1 : dot3 x x = (y - z) * dot3 x u := by
    have a : dot3 x x = dot3 x (ap (shift3 A z) u) := by
      simp only [dot3]; rw [← hx 0 (by decide), ← hx 1 (by decide), ← hx 2 (by decide)]
    rw [a, ap_sym (shift3_sym h z)]
    have q : ∀ i, i < 3 → ap (shift3 A z) x i = (y - z) * x i := by
      intro i hi
      have h1 := hz i hi
      rw [ap_shift _ _ _ _ hi] at h1 ⊢
      linear_combination h1
    simp only [dot3]
    rw [q 0 (by decide), q 1 (by decide), q 2 (by decide)]; ring
  have cs : dot3 x u ^ 2 ≤ dot3 x x := by
    have : dot3 x x * dot3 u u - dot3 x u ^ 2 = (x 0 * u 1 - x 1 * u 0) ^ 2 + (x 0 * u 2 - x 2 * u 0) ^ 2 + (x 1 * u 2 - x 2 * u 1) ^ 2 := by
      simp only [dot3]; ring
    rw [hu, mul_one] at this
    linarith [sq_nonneg (x 0 * u 1 - x 1 * u 0), sq_nonneg (x 0 * u 2 - x 2 * u 0), sq_nonneg (x 1 * u 2 - x 2 * u 1)]
  have hn : 0 ≤ dot3 x x := (sq_nonneg _).trans cs
  rcases hn.eq_or_lt with h0 | h0
  · rw [← h0]; exact sq_nonneg _
  · have : dot3 x x * dot3 x x ≤ (y - z) ^ 2 * dot3 x x := by
      calc dot3 x x * dot3 x x = (y - z) ^ 2 * dot3 x u ^ 2 := by rw [e1]; ring
        _ ≤ _ := mul_le_mul_of_nonneg_left cs (sq_nonneg _)
    exact le_of_mul_le_mul_right this h0

/-- The matrix of eigenvectors from two of them. -/
theorem frame {A F : Matrix (Fin 3) (Fin 3) ℝ} (hA : Aᵀ = A) (hF : Fᵀ * F = 1) {e : Fin 3 → ℝ} (htr : e 0 + e 1 + e 2 = A.trace) {k l : Fin 3}
    (hkl : k = 0 ∧ l = 2 ∨ k = 2 ∧ l = 0) (hk : ∀ i, (A * F) i k = e k * F i k) :
    frobSq (A * F - F * Matrix.diagonal e) = 2 * ∑ i, ((A * F) i l - e l * F i l) ^ 2 := by
  have hF' : F * Fᵀ = 1 := mul_eq_one_comm.1 hF
  obtain ⟨M, hM⟩ : ∃ M, M = Fᵀ * A * F := ⟨_, rfl⟩
  have hAF : A * F = F * M := by rw [hM, Matrix.mul_assoc, ← Matrix.mul_assoc F, hF', Matrix.one_mul]
  have hMs : ∀ i j, M i j = M j i := by
    have : Mᵀ = M := by rw [hM, Matrix.transpose_mul, Matrix.transpose_mul, Matrix.transpose_transpose, hA, Matrix.mul_assoc]
    intro i j; exact congrFun (congrFun this j) i
  have hMk : ∀ i, M i k = if i = k then e k else 0 := by
    intro i
    rw [hM, Matrix.mul_assoc, Matrix.mul_apply]
    simp only [hk]
    have : ∑ j, Fᵀ i j * (e k * F j k) = e k * (Fᵀ * F) i k := by
      rw [Matrix.mul_apply, Finset.mul_sum]; exact Finset.sum_congr rfl fun j _ => by ring
    rw [this, hF, Matrix.one_apply]; split <;> simp
  have hMt : M.trace = A.trace := by
    rw [hM, Matrix.mul_assoc, Matrix.trace_mul_comm, Matrix.mul_assoc, hF', Matrix.mul_one]
  have e1 : A * F - F * Matrix.diagonal e = F * (M - Matrix.diagonal e) := by rw [hAF, Matrix.mul_sub]
  have e2 : ∑ i, ((A * F) i l - e l * F i l) ^ 2 = ∑ i, (M - Matrix.diagonal e) i l ^ 2 := by
    have c : ∀ i, (A * F) i l - e l * F i l = (F * (M - Matrix.diagonal e)) i l := by
      intro i; rw [← e1, Matrix.sub_apply, Matrix.mul_diagonal]; ring
    simp only [c]
    generalize M - Matrix.diagonal e = W
    have : ∑ i, (F * W) i l ^ 2 = ((F * W)ᵀ * (F * W)) l l := by
      rw [Matrix.mul_apply]; exact Finset.sum_congr rfl fun j _ => by rw [Matrix.transpose_apply]; ring
    rw [this, Matrix.transpose_mul, Matrix.mul_assoc, ← Matrix.mul_assoc Fᵀ, hF, Matrix.one_mul, Matrix.mul_apply]
    exact Finset.sum_congr rfl fun j _ => by rw [Matrix.transpose_apply]; ring
  rw [e1, Rot.frobSq_mul_left hF', e2]
  rw [← hMt, Matrix.trace_fin_three] at htr
  simp only [frobSq, Fin.sum_univ_three, Matrix.sub_apply, Matrix.diagonal_apply]
  rcases hkl with ⟨rfl, rfl⟩ | ⟨rfl, rfl⟩
  · have m0 := hMk 0
    have m1 := hMk 1
    have m2 := hMk 2
    simp at m0 m1 m2
    simp [m0, m1, m2, hMs 0 1, hMs 0 2, hMs 1 2]
    rw [m0] at htr
    have : M 1 1 - e 1 = -(M 2 2 - e 2) := by linear_combination -htr
    rw [this]; ring
  · have m0 := hMk 0
    have m1 := hMk 1
    have m2 := hMk 2
    simp at m0 m1 m2
    simp [m0, m1, m2, ← hMs 0 1, hMs 2 0, hMs 2 1]
    rw [m2] at htr
    have : M 1 1 - e 1 = -(M 0 0 - e 0) := by linear_combination -htr
    rw [this]; ring

theorem normalized_unit {v : Store ℝ} (h : dot3 v v = 1) (i : Nat) (hi : i < 3) : Mat.normalized 3 v i = v i := by
  have hl : Mat.length 3 v = 1 := by rw [Mat.length, l2NormSqr_three, h, Real.sqrt_one]
  have : Mat.normalized 3 v i = v i / Mat.length 3 v := Mat.fill_id (fun i => v i / Mat.length 3 v) _ hi
  rw [this, hl, div_one]

theorem normalized_apply (v : Store ℝ) (i : Nat) (hi : i < 3) : Mat.normalized 3 v i = v i / √(dot3 v v) := by
  have : Mat.normalized 3 v i = v i / Mat.length 3 v := Mat.fill_id (fun i => v i / Mat.length 3 v) _ hi
  rw [this, Mat.length, l2NormSqr_three]

theorem dot_three (u v : Store ℝ) : Mat.dot 3 u v = dot3 u v := by
  simp [Mat.dot, forN_succ, forN_zero, dot3]

open Classical in
/-- The columns k and l. -/
theorem two_columns {A : Mx} (h : Sym3 A) {x y z : ℝ} (hr : Roots A x y z) (hxy : y - x ≠ 0) (hxz : z - x ≠ 0) (htx : (y - x) + (z - x) ≠ 0) {k l : Nat}
    (hkl : k ≠ l) {c : Prop} (hc : ¬c → y - z ≠ 0 ∧ (x - z) + (y - z) ≠ 0) {r : Mx × Store ℝ} (hrr : r = extractKernel (fun _ _ => 0) (shift3 A x) k)
    {E E' : Mx} (hE : E = setCol r.1 l r.2)
    (hE' : E' = if c then setCol E l (Mat.normalized 3 (Mat.sub 3 (column E l) (Mat.smul 3 (column E l) (Mat.dot 3 (column E k) (column E l)))))
      else (extractKernel E (shift3 A z) l).1) :
    ∃ v u : Store ℝ, (∀ i, i < 3 → E' i k = v i) ∧ (∀ i, i < 3 → E' i l = u i) ∧ dot3 v v = 1 ∧ dot3 u u = 1 ∧ dot3 v u = 0 ∧
      (∀ i, i < 3 → ap A v i = x * v i) ∧ dot3 (ap (shift3 A z) u) (ap (shift3 A z) u) ≤ if c then (y - z) ^ 2 else 0 := by
  have rx := shift3_roots hr x
  obtain ⟨v, i0, he, hi0, hv, hav, hp⟩ := extractKernel_spec (shift3_sym h x) (A := shift3 A x) (by rw [← rx.s3]; ring)
    (by rw [← rx.s2]; intro hh; exact mul_ne_zero hxy hxz (by linear_combination hh)) (by rw [← rx.s1]; intro hh; exact htx (by linear_combination hh))
    (fun _ _ => 0) k
  rw [he] at hrr
  rw [hrr] at hE
  dsimp only at hE
  have hEk : ∀ i, i < 3 → E i k = v i := by
    intro i hi
    rw [hE, setCol_apply, if_neg (fun hh => hkl hh.2), setCol_apply, if_pos ⟨hi, rfl⟩]
  have hEl : ∀ i, i < 3 → E i l = column (shift3 A x) i0 i := by
    intro i hi
    rw [hE, setCol_apply, if_pos ⟨hi, rfl⟩]
  have hAv : ∀ i, i < 3 → ap A v i = x * v i := by
    intro i hi
    have := hav i hi
    rw [ap_shift _ _ _ _ hi] at this; linarith
  by_cases hcc : c
  · rw [if_pos hcc] at hE'
    obtain ⟨w, hw⟩ : ∃ w, w = column (shift3 A x) i0 := ⟨_, rfl⟩
    rw [← hw] at hEl hp
    have hd0 : dot3 v w = 0 := by
      have hs := shift3_sym h x
      have h0 := hav i0 hi0
      rw [hw]
      have : i0 = 0 ∨ i0 = 1 ∨ i0 = 2 := by omega
      simp only [ap] at h0
      simp only [dot3, column]
      rcases this with rfl | rfl | rfl
      · rw [hs.h01, hs.h02] at h0; linear_combination h0
      · rw [hs.h12] at h0; rw [hs.h01]; linear_combination h0
      · rw [hs.h02, hs.h12]; linear_combination h0
    have hdot : Mat.dot 3 (column E k) (column E l) = 0 := by
      rw [dot_three, ← hd0]
      simp only [dot3, column]
      rw [hEk 0 (by decide), hEk 1 (by decide), hEk 2 (by decide), hEl 0 (by decide), hEl 1 (by decide), hEl 2 (by decide)]
    have hsub : ∀ i, i < 3 → Mat.sub 3 (column E l) (Mat.smul 3 (column E l) (Mat.dot 3 (column E k) (column E l))) i = w i := by
      intro i hi
      rw [hdot]
      have hi' : i = 0 ∨ i = 1 ∨ i = 2 := by omega
      rcases hi' with rfl | rfl | rfl <;> simp [Mat.sub, Mat.smul, forN_succ, forN_zero, Mat.upd, column, hEl]
    obtain ⟨t, ht⟩ : ∃ t, t = Mat.sub 3 (column E l) (Mat.smul 3 (column E l) (Mat.dot 3 (column E k) (column E l))) := ⟨_, rfl⟩
    rw [← ht] at hsub hE'
    have htt : dot3 t t = dot3 w w := by
      simp only [dot3]; rw [hsub 0 (by decide), hsub 1 (by decide), hsub 2 (by decide)]
    obtain ⟨q, hq⟩ : ∃ q, q = √(dot3 w w) := ⟨_, rfl⟩
    have hq0 : 0 < q := by rw [hq]; exact Real.sqrt_pos.2 hp
    have hqq : q * q = dot3 w w := by rw [hq]; exact Real.mul_self_sqrt hp.le
    have hu1 : dot3 (fun i => w i / q) (fun i => w i / q) = 1 := by
      simp only [dot3] at hqq ⊢
      field_simp
      linarith
    refine ⟨v, fun i => w i / q, ?_, ?_, hv, hu1, ?_, hAv, ?_⟩
    · intro i hi
      rw [hE', setCol_apply, if_neg (fun hh => hkl hh.2), hEk i hi]
    · intro i hi
      rw [hE', setCol_apply, if_pos ⟨hi, rfl⟩, normalized_apply _ _ hi, htt, hsub i hi, ← hq]
    · have : dot3 v (fun i => w i / q) = dot3 v w / q := by simp only [dot3]; ring
      rw [this, hd0, zero_div]
    · rw [if_pos hcc]
      refine residual_le h hu1 (fun i _ => rfl) (fun i hi => ?_)
      have hl : ap (shift3 A z) (fun i => w i / q) = fun i => ap (shift3 A z) w i / q := by
        funext i; simp only [ap]; ring
      have hl2 : ap (shift3 A y) (fun i => ap (shift3 A z) w i / q) i = ap (shift3 A y) (ap (shift3 A z) w) i / q := by
        generalize ap (shift3 A z) w = g
        simp only [ap]; ring
      rw [hl, hl2, hw, cayley h hr i i0 hi hi0, zero_div]
  · rw [if_neg hcc] at hE'
    obtain ⟨hyz, htz⟩ := hc hcc
    have rz := shift3_roots hr z
    obtain ⟨u, j0, he2, -, hu, hau, -⟩ := extractKernel_spec (shift3_sym h z) (A := shift3 A z) (by rw [← rz.s3]; ring)
      (by rw [← rz.s2]; intro hh; exact mul_ne_zero hxz hyz (by linear_combination -hh)) (by rw [← rz.s1]; intro hh; exact htz (by linear_combination hh)) E l
    rw [he2] at hE'
    dsimp only at hE'
    refine ⟨v, u, ?_, ?_, hv, hu, ?_, hAv, ?_⟩
    · intro i hi
      rw [hE', setCol_apply, if_neg (fun hh => hkl hh.2), hEk i hi]
    · intro i hi
      rw [hE', setCol_apply, if_pos ⟨hi, rfl⟩]
    · have hAu : ∀ i, i < 3 → ap A u i = z * u i := by
        intro i hi
        have := hau i hi
        rw [ap_shift _ _ _ _ hi] at this; linarith
      have e1 : dot3 v (ap A u) = z * dot3 v u := by
        simp only [dot3]; rw [hAu 0 (by decide), hAu 1 (by decide), hAu 2 (by decide)]; ring
      have e2 : dot3 (ap A v) u = x * dot3 v u := by
        simp only [dot3]; rw [hAv 0 (by decide), hAv 1 (by decide), hAv 2 (by decide)]; ring
      have e3 : (z - x) * dot3 v u = 0 := by rw [ap_sym h, e2] at e1; linear_combination -e1
      exact (mul_eq_zero.1 e3).resolve_left hxz
    · rw [if_neg hcc]
      simp only [dot3]
      rw [hau 0 (by decide), hau 1 (by decide), hau 2 (by decide)]; simp

theorem cross_dots (a b : Store ℝ) : dot3 (Mat.cross3 a b) (Mat.cross3 a b) = dot3 a a * dot3 b b - dot3 a b ^ 2 ∧
    dot3 (Mat.cross3 a b) a = 0 ∧ dot3 (Mat.cross3 a b) b = 0 := by
  simp [dot3, Mat.cross3, Mat.upd]
  exact ⟨by ring, by ring, by ring⟩

theorem mul_col (A E : Mx) (i k : Fin 3) : (mx 3 A * mx 3 E) i k = ap A (column E k) i := by
  simp [Matrix.mul_apply, Fin.sum_univ_three, mx, ap, column]

open Classical in
theorem vectors3_spec {A : Mx} (h : Sym3 A) {e : Nat → ℝ} (hr : Roots A (e 0) (e 1) (e 2)) (h01 : e 0 ≤ e 1) (h12 : e 1 ≤ e 2) {eps : ℝ} (he0 : 0 ≤ eps)
    (he1 : eps < 1 / 2) (hgap : eps < e 2 - e 0) :
    mx 3 (vectors3 eps A e) * (mx 3 (vectors3 eps A e))ᵀ = 1 ∧ (mx 3 (vectors3 eps A e)).det = 1 ∧
      frobSq (mx 3 A * mx 3 (vectors3 eps A e) - mx 3 (vectors3 eps A e) * Matrix.diagonal fun i : Fin 3 => e i) ≤ 2 * (2 * eps * (e 1 - e 0)) ^ 2 := by
  have key : ∀ (k l : Nat) (E : Mx) (c : Prop), (k = 0 ∧ l = 2 ∨ k = 2 ∧ l = 0) →
      (∃ v u : Store ℝ, (∀ i, i < 3 → E i k = v i) ∧ (∀ i, i < 3 → E i l = u i) ∧ dot3 v v = 1 ∧ dot3 u u = 1 ∧ dot3 v u = 0 ∧
        (∀ i, i < 3 → ap A v i = e k * v i) ∧ dot3 (ap (shift3 A (e l)) u) (ap (shift3 A (e l)) u) ≤ if c then (e 1 - e l) ^ 2 else 0) →
      (c → (e 1 - e l) ^ 2 ≤ (2 * eps * (e 1 - e 0)) ^ 2) →
      ∀ F, F = setCol E 1 (Mat.normalized 3 (Mat.cross3 (column E 2) (column E 0))) →
      mx 3 F * (mx 3 F)ᵀ = 1 ∧ (mx 3 F).det = 1 ∧
        frobSq (mx 3 A * mx 3 F - mx 3 F * Matrix.diagonal fun i : Fin 3 => e i) ≤ 2 * (2 * eps * (e 1 - e 0)) ^ 2 := by
    rintro k l E c hkl ⟨v, u, hk, hl, hvv, huu, hvu, hAv, hres⟩ hcb F hF
    have d22 : dot3 (column E 2) (column E 2) = 1 ∧ dot3 (column E 0) (column E 0) = 1 ∧ dot3 (column E 2) (column E 0) = 0 := by
      simp only [dot3, column] at hvv huu hvu ⊢
      rcases hkl with ⟨rfl, rfl⟩ | ⟨rfl, rfl⟩
      · rw [hk 0 (by decide), hk 1 (by decide), hk 2 (by decide), hl 0 (by decide), hl 1 (by decide), hl 2 (by decide)]
        exact ⟨huu, hvv, by linear_combination hvu⟩
      · rw [hk 0 (by decide), hk 1 (by decide), hk 2 (by decide), hl 0 (by decide), hl 1 (by decide), hl 2 (by decide)]
        exact ⟨hvv, huu, by linear_combination hvu⟩
    obtain ⟨d22, d00, d20⟩ := d22
    obtain ⟨cc, c2, c0⟩ := cross_dots (column E 2) (column E 0)
    rw [d22, d00, d20] at cc
    have cc1 : dot3 (Mat.cross3 (column E 2) (column E 0)) (Mat.cross3 (column E 2) (column E 0)) = 1 := by rw [cc]; norm_num
    have f0 : ∀ i, i < 3 → F i 0 = E i 0 := fun i _ => by rw [hF, setCol_apply, if_neg (by simp)]
    have f2 : ∀ i, i < 3 → F i 2 = E i 2 := fun i _ => by rw [hF, setCol_apply, if_neg (by simp)]
    have f1 : ∀ i, i < 3 → F i 1 = Mat.cross3 (column E 2) (column E 0) i := fun i hi => by
      rw [hF, setCol_apply, if_pos ⟨hi, rfl⟩, normalized_unit cc1 i hi]
    have x0 : Mat.cross3 (column E 2) (column E 0) 0 = E 1 2 * E 2 0 - E 2 2 * E 1 0 := rfl
    have x1 : Mat.cross3 (column E 2) (column E 0) 1 = E 2 2 * E 0 0 - E 0 2 * E 2 0 := rfl
    have x2 : Mat.cross3 (column E 2) (column E 0) 2 = E 0 2 * E 1 0 - E 1 2 * E 0 0 := rfl
    simp only [dot3, column] at d22 d00 d20
    have hFF : (mx 3 F)ᵀ * mx 3 F = 1 := by
      have y := c0
      have y' := c2
      simp only [dot3, column] at cc1 y y'
      funext i j
      rw [Matrix.mul_apply, Fin.sum_univ_three]
      have hh : ∀ a b : Fin 3, (mx 3 F)ᵀ a b = F b a := fun _ _ => rfl
      have hh' : ∀ a b : Fin 3, (mx 3 F) a b = F a b := fun _ _ => rfl
      simp only [hh, hh']
      fin_cases i <;> fin_cases j <;> simp [f0, f1, f2, Matrix.one_apply]
      · linear_combination d00
      · linear_combination y
      · linear_combination d20
      · linear_combination y
      · linear_combination cc1
      · linear_combination y'
      · linear_combination d20
      · linear_combination y'
      · linear_combination d22
    refine ⟨mul_eq_one_comm.1 hFF, ?_, ?_⟩
    · rw [Matrix.det_fin_three]
      have hh' : ∀ a b : Fin 3, (mx 3 F) a b = F a b := fun _ _ => rfl
      simp only [hh']
      simp [f0, f1, f2, x0, x1, x2]
      simp only [dot3, x0, x1, x2, column] at cc1
      linear_combination cc1
    · obtain ⟨k', hk'⟩ : ∃ k' : Fin 3, (k' : Nat) = k := ⟨⟨k, by omega⟩, rfl⟩
      obtain ⟨l', hl'⟩ : ∃ l' : Fin 3, (l' : Nat) = l := ⟨⟨l, by omega⟩, rfl⟩
      have hkl' : k' = 0 ∧ l' = 2 ∨ k' = 2 ∧ l' = 0 := by
        rcases hkl with ⟨h1, h2⟩ | ⟨h1, h2⟩
        · left; exact ⟨Fin.ext (by rw [hk', h1]; rfl), Fin.ext (by rw [hl', h2]; rfl)⟩
        · right; exact ⟨Fin.ext (by rw [hk', h1]; rfl), Fin.ext (by rw [hl', h2]; rfl)⟩
      have hFk : ∀ i, i < 3 → F i k = v i := by
        intro i hi; rcases hkl with ⟨h1, -⟩ | ⟨h1, -⟩
        · rw [← hk i hi, h1, f0 i hi]
        · rw [← hk i hi, h1, f2 i hi]
      have hFl : ∀ i, i < 3 → F i l = u i := by
        intro i hi; rcases hkl with ⟨-, h1⟩ | ⟨-, h1⟩
        · rw [← hl i hi, h1, f2 i hi]
        · rw [← hl i hi, h1, f0 i hi]
      have hAs : (mx 3 A)ᵀ = mx 3 A := by
        funext i j; fin_cases i <;> fin_cases j <;> simp [mx, h.h01, h.h02, h.h12]
      rw [frame (k := k') (l := l') hAs hFF (by rw [Matrix.trace_fin_three]; exact hr.s1) hkl' ?_]
      · have : ∑ i : Fin 3, ((mx 3 A * mx 3 F) i l' - e l' * mx 3 F i l') ^ 2 = dot3 (ap (shift3 A (e l)) u) (ap (shift3 A (e l)) u) := by
          simp only [mul_col, hl', Fin.sum_univ_three, dot3]
          rw [ap_shift _ _ _ 0 (by decide), ap_shift _ _ _ 1 (by decide), ap_shift _ _ _ 2 (by decide)]
          have hh' : ∀ a : Fin 3, (mx 3 F) a l' = u a := fun a => by rw [← hFl a a.2, ← hl']; rfl
          simp only [hh', ap, column, hFl 0 (by decide), hFl 1 (by decide), hFl 2 (by decide)]
          simp; ring
        rw [this]
        have : (if c then (e 1 - e l) ^ 2 else 0) ≤ (2 * eps * (e 1 - e 0)) ^ 2 := by
          split
          · exact hcb ‹_›
          · positivity
        linarith
      · intro i
        rw [mul_col, hk']
        have hh' : (mx 3 F) i k' = v i := by rw [← hFk i i.2, ← hk']; rfl
        rw [hh', ← hAv i i.2]
        simp only [ap, column, hFk 0 (by decide), hFk 1 (by decide), hFk 2 (by decide)]
  have hng : ¬ e 2 - e 0 ≤ eps := not_le.2 hgap
  rw [vectors3, if_neg hng]
  by_cases hs : e 2 - e 1 > e 1 - e 0
  · simp only [if_pos hs]
    refine key 2 0 _ (e 1 - e 0 ≤ 2 * eps * (e 1 - e 0)) (Or.inr ⟨rfl, rfl⟩) (two_columns h hr.swap ?_ ?_ ?_ (by decide) ?_ rfl rfl rfl) ?_ _ rfl
    · intro hh; linarith
    · intro hh; linarith
    · intro hh; linarith
    · intro hc
      have : 0 < e 1 - e 0 := lt_of_le_of_lt (mul_nonneg (by linarith) (by linarith)) (not_le.1 hc)
      exact ⟨fun hh => by linarith, fun hh => by linarith⟩
    · intro hc
      have : e 1 - e 0 = 0 := by
        by_contra hne
        have hp : 0 < e 1 - e 0 := lt_of_le_of_ne (by linarith) (Ne.symm hne)
        have : 2 * eps * (e 1 - e 0) < 1 * (e 1 - e 0) := mul_lt_mul_of_pos_right (by linarith) hp
        linarith
      rw [this]; simp
  · simp only [if_neg hs]
    have hs' := not_lt.1 hs
    refine key 0 2 _ (e 2 - e 1 ≤ 2 * eps * (e 1 - e 0)) (Or.inl ⟨rfl, rfl⟩) (two_columns h hr ?_ ?_ ?_ (by decide) ?_ rfl rfl rfl) ?_ _ rfl
    · intro hh; linarith
    · intro hh; linarith
    · intro hh; linarith
    · intro hc
      have : 0 < e 2 - e 1 := lt_of_le_of_lt (mul_nonneg (by linarith) (by linarith)) (not_le.1 hc)
      exact ⟨fun hh => by linarith, fun hh => by linarith⟩
    · intro hc
      have : (e 1 - e 2) ^ 2 = (e 2 - e 1) ^ 2 := by ring
      rw [this]
      exact pow_le_pow_left₀ (by linarith) hc 2

end Verif.Eig
