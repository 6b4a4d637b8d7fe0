import Verif.Proof.MathUtils
import Mathlib.Analysis.SpecialFunctions.Pow.Complex

/-!
Properties of the functions for the smallest positive root of polynomials of degree two and three.
-/
namespace Verif.MathUtils

/-! ## Degree two -/

/-- The smallest positive root, or a negative number if there is none.  Missing, each with a counterexample below: zero as a root, double roots, a negative
leading coefficient with two positive roots; and coefficients of which none but the constant counts. -/
theorem quad_smallest_partial {tol a b c : ℝ} (h0 : 0 ≤ tol) (hc : c ≠ 0)
    (h : a = 0 ∧ b ≠ 0 ∨ tol < |a| ∧ b * b - 4 * a * c ≠ 0 ∧ (0 < a ∨ b ≤ 0 ∨ 0 < c)) :
    ∃ t, quadRoot tol a b c = some t ∧ SmallestPositive (fun x => a * x * x + b * x + c) t := by
  rcases h with ⟨rfl, hb⟩ | ⟨ha, hd, hs⟩
  · refine ⟨-c / b, by simp [quadRoot, h0, hb], ?_⟩
    have key : ∀ x : ℝ, 0 * x * x + b * x + c = 0 → x = -c / b := by
      intro x hx; rw [eq_div_iff hb]; linarith
    by_cases hp : 0 < -c / b
    · left
      refine ⟨hp, by field_simp; ring, fun x _ hx => (key x hx).ge⟩
    · right
      have hne : -c / b ≠ 0 := div_ne_zero (neg_ne_zero.2 hc) hb
      refine ⟨lt_of_le_of_ne (not_lt.1 hp) hne, fun x hx e => hp ?_⟩
      rw [← key x e]; exact hx
  · have ha0 : a ≠ 0 := by rintro rfl; rw [abs_zero] at ha; linarith
    unfold quadRoot
    rw [if_neg (not_le.2 ha)]
    simp only
    by_cases hp : b * b - 4 * a * c > 0
    · rw [if_pos hp]
      have hq := Real.sqrt_pos.2 hp
      have hq2 := Real.mul_self_sqrt (le_of_lt hp)
      generalize Real.sqrt (b * b - 4 * a * c) = q at *
      refine ⟨_, rfl, ?_⟩
      have hu : (-b - q) / (2 * a) * (2 * a) = -b - q := by field_simp
      have hv : (-b + q) / (2 * a) * (2 * a) = -b + q := by field_simp
      generalize (-b - q) / (2 * a) = u at *
      generalize (-b + q) / (2 * a) = v at *
      have split : ∀ x : ℝ, a * x * x + b * x + c = a * ((x - u) * (x - v)) := by
        intro x
        have hsum : a * (u + v) = -b := by linarith
        have hprod : a * (u * v) = c := by
          have : 4 * a * (a * (u * v)) = 4 * a * c := by
            have : (u * (2 * a)) * (v * (2 * a)) = (-b - q) * (-b + q) := by rw [hu, hv]
            linear_combination this - hq2
          exact mul_left_cancel₀ (by simpa using ha0) this
        linear_combination x * hsum + (-1) * hprod
      have root : ∀ x : ℝ, a * x * x + b * x + c = 0 ↔ x = u ∨ x = v := by
        intro x; rw [split, mul_eq_zero, mul_eq_zero, sub_eq_zero, sub_eq_zero]; simp [ha0]
      have hu0 : u ≠ 0 := by rintro rfl; apply hc; have := (root 0).2 (Or.inl rfl); linarith
      have hv0 : v ≠ 0 := by rintro rfl; apply hc; have := (root 0).2 (Or.inr rfl); linarith
      split_ifs with hneg
      · by_cases hvp : 0 < v
        · left
          refine ⟨hvp, (root v).2 (Or.inr rfl), fun x hx e => ?_⟩
          rcases (root x).1 e with rfl | rfl
          · linarith
          · exact le_rfl
        · right
          refine ⟨lt_of_le_of_ne (not_lt.1 hvp) hv0, fun x hx e => ?_⟩
          rcases (root x).1 e with rfl | rfl <;> linarith
      · have hup : 0 < u := lt_of_le_of_ne (not_lt.1 hneg) hu0.symm
        left
        refine ⟨hup, (root u).2 (Or.inl rfl), fun x hx e => ?_⟩
        rcases (root x).1 e with rfl | rfl
        · exact le_rfl
        · by_contra hlt
          rw [not_le] at hlt
          have han : a < 0 := by
            by_contra hh
            have : 0 < a := lt_of_le_of_ne (not_lt.1 hh) ha0.symm
            nlinarith
          have hsum : a * (u + x) = -b := by linarith
          have hprod : c = a * (u * x) := by have := split 0; linarith
          have : 0 < u * x := mul_pos hup hx
          rcases hs with h1 | h1 | h1 <;> nlinarith
    · rw [if_neg hp]
      refine ⟨-1, rfl, Or.inr ⟨by norm_num, fun x _ e => ?_⟩⟩
      have : b * b - 4 * a * c < 0 := lt_of_le_of_ne (not_lt.1 hp) hd
      simp only at e
      have : (2 * a * x + b) * (2 * a * x + b) = b * b - 4 * a * c := by linear_combination 4 * a * e
      linarith [mul_self_nonneg (2 * a * x + b)]

/-- −x²+3x−2 has the roots 1 and 2; the result is 2. -/
theorem quad_negative_violated {tol : ℝ} (h1 : tol < 1) : quadRoot tol (-1) 3 (-2) = some 2 ∧ ¬ SmallestPositive (fun x => -1 * x * x + 3 * x + -2) 2 := by
  constructor
  · have : ((3 : ℝ) * 3 - 4 * -1 * -2) = 1 := by norm_num
    unfold quadRoot
    rw [if_neg (by norm_num; exact h1)]
    simp only [this, Real.sqrt_one]
    norm_num
  · rintro (⟨_, _, h⟩ | ⟨h, _⟩)
    · have := h 1 (by norm_num) (by norm_num); norm_num at this
    · norm_num at h

/-- x²−2x+1 has the root 1; the result is −1. -/
theorem quad_double_violated {tol : ℝ} (h1 : tol < 1) : quadRoot tol 1 (-2) 1 = some (-1) ∧ ¬ SmallestPositive (fun x => 1 * x * x + -2 * x + 1) (-1) := by
  constructor
  · unfold quadRoot
    rw [if_neg (by norm_num; exact h1)]
    norm_num
  · rintro (⟨h, _⟩ | ⟨_, h⟩)
    · norm_num at h
    · exact h 1 (by norm_num) (by norm_num)

/-- x²−x has the positive root 1; the result is 0. -/
theorem quad_zero_violated {tol : ℝ} (h1 : tol < 1) : quadRoot tol 1 (-1) 0 = some 0 ∧ ¬ SmallestPositive (fun x => 1 * x * x + -1 * x + 0) 0 := by
  constructor
  · unfold quadRoot
    rw [if_neg (by norm_num; exact h1)]
    norm_num
  · rintro (⟨h, _⟩ | ⟨h, _⟩) <;> norm_num at h

/-- Without a linear coefficient a zero divides. -/
theorem quad_constant_violated {tol : ℝ} (h0 : 0 ≤ tol) (c : ℝ) : quadRoot tol 0 0 c = none := by
  simp [quadRoot, h0]

/-! ## Degree three -/

/-- The three numbers are the roots, with their multiplicities, whatever branches of the roots are taken, unless there is one triple root. -/
theorem cubic_roots {sq cb : ℂ → ℂ} (hsq : ∀ z, sq z ^ 2 = z) (hcb : ∀ z, cb z ^ 3 = z) {a b c d : ℝ} (ha : a ≠ 0)
    (ht : ¬ (b * b = 3 * a * c ∧ 2 * b * b * b - 9 * a * b * c + 27 * a * a * d = 0)) :
    let r := cardano sq cb a b c d
    r.C ≠ 0 ∧ ∀ X : ℂ, a * X ^ 3 + b * X ^ 2 + c * X + d = a * (X - r.t1) * (X - r.t2) * (X - r.t3) := by
  obtain ⟨w, hw2, hw3, hw⟩ := u_facts
  have hac : (a : ℂ) ≠ 0 := Complex.ofReal_ne_zero.2 ha
  have hwne : w ≠ 0 := by rintro rfl; norm_num at hw
  have hwc : w * w * w = 1 := by linear_combination (w - 1) * hw
  unfold cardano
  simp only [hw2, hw3]
  have e0 : ((b * b - 3 * a * c : ℝ) : ℂ) = b * b - 3 * a * c := by push_cast; ring
  have e1 : ((2 * b * b * b - 9 * a * b * c + 27 * a * a * d : ℝ) : ℂ) = 2 * b * b * b - 9 * a * b * c + 27 * a * a * d := by push_cast; ring
  have hz : ¬ (((b * b - 3 * a * c : ℝ) : ℂ) = 0 ∧ ((2 * b * b * b - 9 * a * b * c + 27 * a * a * d : ℝ) : ℂ) = 0) := by
    rintro ⟨h1, h2⟩
    exact ht ⟨by have := Complex.ofReal_eq_zero.1 h1; linarith, Complex.ofReal_eq_zero.1 h2⟩
  generalize ((b * b - 3 * a * c : ℝ) : ℂ) = D0 at *
  generalize ((2 * b * b * b - 9 * a * b * c + 27 * a * a * d : ℝ) : ℂ) = D1 at *
  have hs := hsq (D1 * D1 - 4 * D0 * D0 * D0)
  generalize sq (D1 * D1 - 4 * D0 * D0 * D0) = s at *
  have hC : ∃ C s', (if cb ((D1 + s) / 2) = 0 then cb ((D1 - s) / 2) else cb ((D1 + s) / 2)) = C ∧ C ≠ 0 ∧ C ^ 3 = (D1 + s') / 2 ∧ s' ^ 2 = D1 * D1 - 4 * D0 * D0 * D0 := by
    have p := hcb ((D1 + s) / 2)
    have m := hcb ((D1 - s) / 2)
    by_cases h : cb ((D1 + s) / 2) = 0
    · refine ⟨_, -s, by rw [if_pos h], ?_, by rw [m]; ring, by rw [neg_sq, hs]⟩
      intro hm
      rw [h] at p
      rw [hm] at m
      have a1 : D1 = 0 := by linear_combination -p - m
      have a2 : s = 0 := by linear_combination -p + m
      rw [a1, a2] at hs
      have : D0 = 0 := by
        have : D0 ^ 3 = 0 := by linear_combination 1 / 4 * hs
        exact pow_eq_zero_iff (by norm_num) |>.1 this
      exact hz ⟨this, a1⟩
    · exact ⟨_, s, by rw [if_neg h], h, p, hs⟩
  obtain ⟨C, s', hCe, hCne, hC3, hs'⟩ := hC
  rw [hCe]
  refine ⟨hCne, fun X => ?_⟩
  have d2 : D0 / (w * C) = w * w * (D0 / C) := by field_simp; linear_combination -D0 * hwc
  have d3 : D0 / (w * w * C) = w * (D0 / C) := by field_simp; linear_combination -D0 * hwc
  rw [d2, d3]
  have hCD : C * (D0 / C) = D0 := by field_simp
  have hD3 : D0 / C * (D0 / C) * (D0 / C) = (D1 - s') / 2 := by
    have h2 : (D0 / C) ^ 3 * C ^ 3 = (D1 - s') / 2 * C ^ 3 := by
      rw [← mul_pow, mul_comm (D0 / C) C, hCD, hC3]; linear_combination 1 / 4 * hs'
    have := mul_right_cancel₀ (pow_ne_zero 3 hCne) h2
    linear_combination this
  generalize D0 / C = D at *
  refine cardano_split hac hw (by rw [hCD, e0]) ?_ X
  rw [hD3, ← e1]
  linear_combination hC3

/-- The result is the smallest positive real part of a complex root whose imaginary part is below the tolerance, or −1 if there is none. -/
theorem cubic_result {sq cb : ℂ → ℂ} (hsq : ∀ z, sq z ^ 2 = z) (hcb : ∀ z, cb z ^ 3 = z) {tol a b c d : ℝ} (h0 : 0 ≤ tol) (ha : tol < |a|)
    (ht : ¬ (b * b = 3 * a * c ∧ 2 * b * b * b - 9 * a * b * c + 27 * a * a * d = 0)) :
    ∃ t, cubicRoot sq cb tol a b c d = some t ∧
      ((∃ z : ℂ, a * z ^ 3 + b * z ^ 2 + c * z + d = 0 ∧ |z.im| < tol ∧ 0 < z.re ∧ t = z.re) ∧
        (∀ z : ℂ, a * z ^ 3 + b * z ^ 2 + c * z + d = 0 → |z.im| < tol → 0 < z.re → t ≤ z.re) ∨
      t = -1 ∧ ∀ z : ℂ, a * z ^ 3 + b * z ^ 2 + c * z + d = 0 → |z.im| < tol → ¬ 0 < z.re) := by
  have ha0 : a ≠ 0 := by rintro rfl; rw [abs_zero] at ha; linarith
  have hac : (a : ℂ) ≠ 0 := Complex.ofReal_ne_zero.2 ha0
  obtain ⟨hC, hroot⟩ := cubic_roots hsq hcb ha0 ht
  unfold cubicRoot
  rw [if_neg (not_le.2 ha)]
  simp only
  generalize cardano sq cb a b c d = r at *
  rw [if_neg hC]
  refine ⟨_, rfl, ?_⟩
  have root : ∀ z : ℂ, (a : ℂ) * z ^ 3 + b * z ^ 2 + c * z + d = 0 ↔ z = r.t1 ∨ z = r.t2 ∨ z = r.t3 := by
    intro z
    rw [hroot z, mul_eq_zero, mul_eq_zero, mul_eq_zero, sub_eq_zero, sub_eq_zero, sub_eq_zero, or_assoc]
    simp [hac]
  simp only [root]
  have b0 : Best tol (fun _ => False) (-1) := Or.inr ⟨rfl, fun _ h => h.elim⟩
  have b1 := b0.step r.t1
  have b2 := b1.step r.t2
  have b3 := b2.step r.t3
  have e : ((-1 : ℝ) < 0) = True := by simp
  simp only [e, or_true, and_true, false_or, or_assoc] at b3
  exact b3

/-- The smallest positive root, or −1, if no complex root that is not real has an imaginary part below the tolerance.  Missing: such roots, and triple roots,
see `cubic_nonreal_violated` and `cubic_triple_violated`; without the cubic term the exceptions of degree two. -/
theorem cubic_smallest_partial {sq cb : ℂ → ℂ} (hsq : ∀ z, sq z ^ 2 = z) (hcb : ∀ z, cb z ^ 3 = z) {tol a b c d : ℝ} (h0 : 0 < tol) (ha : tol < |a|)
    (ht : ¬ (b * b = 3 * a * c ∧ 2 * b * b * b - 9 * a * b * c + 27 * a * a * d = 0))
    (him : ∀ z : ℂ, a * z ^ 3 + b * z ^ 2 + c * z + d = 0 → z.im ≠ 0 → tol ≤ |z.im|) :
    ∃ t, cubicRoot sq cb tol a b c d = some t ∧ SmallestPositive (fun x => a * x * x * x + b * x * x + c * x + d) t := by
  obtain ⟨t, e, h⟩ := cubic_result hsq hcb h0.le ha ht
  refine ⟨t, e, ?_⟩
  rcases h with ⟨⟨z, hz, hi, hr, rfl⟩, hm⟩ | ⟨rfl, hm⟩
  · left
    have hi0 : z.im = 0 := by
      by_contra hh; exact absurd (him z hz hh) (not_le.2 hi)
    have hzr : ((z.re : ℝ) : ℂ) = z := Complex.ext (by simp) (by simp [hi0])
    refine ⟨hr, (cubic_real a b c d z.re).1 (by rw [hzr]; exact hz), fun x hx ex => ?_⟩
    have := hm x ((cubic_real a b c d x).2 ex) (by simpa using h0) (by simpa using hx)
    simpa using this
  · right
    refine ⟨by norm_num, fun x hx ex => ?_⟩
    exact hm x ((cubic_real a b c d x).2 ex) (by simpa using h0) (by simpa using hx)

/-- Without the cubic term the quadratic is solved. -/
theorem cubic_quadratic {sq cb : ℂ → ℂ} {tol b c d : ℝ} (h0 : 0 ≤ tol) : cubicRoot sq cb tol 0 b c d = quadRoot tol b c d := by
  simp [cubicRoot, h0]

/-- (x−1)³ has the root 1; the result is −1. -/
theorem cubic_triple_violated {sq cb : ℂ → ℂ} (hsq : ∀ z, sq z ^ 2 = z) (hcb : ∀ z, cb z ^ 3 = z) {tol : ℝ} (h1 : tol < 1) :
    cubicRoot sq cb tol 1 (-3) 3 (-1) = some (-1) ∧ ¬ SmallestPositive (fun x => 1 * x * x * x + -3 * x * x + 3 * x + -1) (-1) := by
  constructor
  · have z2 : sq 0 = 0 := pow_eq_zero_iff (two_ne_zero) |>.1 (hsq 0)
    have z3 : cb 0 = 0 := pow_eq_zero_iff (three_ne_zero) |>.1 (hcb 0)
    have hC : (cardano sq cb 1 (-3) 3 (-1)).C = 0 := by
      unfold cardano
      simp only
      norm_num [z2, z3]
    unfold cubicRoot
    rw [if_neg (by norm_num; exact h1)]
    simp only [hC, if_true]
  · rintro (⟨h, _⟩ | ⟨_, h⟩)
    · norm_num at h
    · exact h 1 (by norm_num) (by norm_num)

/-- (x+1)((x−1)²+h²) has no positive root; if the tolerance exceeds `h`, the result is 1. -/
theorem cubic_nonreal_violated {sq cb : ℂ → ℂ} (hsq : ∀ z, sq z ^ 2 = z) (hcb : ∀ z, cb z ^ 3 = z) {tol h : ℝ} (hh : 0 < h) (ht : h < tol) (h1 : tol < 1) :
    cubicRoot sq cb tol 1 (-1) (h * h - 1) (h * h + 1) = some 1 ∧
      ∀ x, 0 < x → 1 * x * x * x + -1 * x * x + (h * h - 1) * x + (h * h + 1) ≠ 0 := by
  have hpos : ∀ x : ℝ, 0 < x → 1 * x * x * x + -1 * x * x + (h * h - 1) * x + (h * h + 1) ≠ 0 := by
    intro x hx e
    have : (x + 1) * ((x - 1) * (x - 1) + h * h) = 0 := by linear_combination e
    have h2 : 0 < (x - 1) * (x - 1) + h * h := by nlinarith [mul_self_nonneg (x - 1), mul_pos hh hh]
    have h3 : 0 < x + 1 := by linarith
    exact (mul_pos h3 h2).ne' this
  refine ⟨?_, hpos⟩
  obtain ⟨t, e, hc⟩ := cubic_result (tol := tol) (a := 1) (b := -1) (c := h * h - 1) (d := h * h + 1) hsq hcb (by linarith) (by norm_num; exact h1) (by
    rintro ⟨g1, _⟩; nlinarith [mul_pos hh hh])
  have roots : ∀ z : ℂ, ((1 : ℝ) : ℂ) * z ^ 3 + ((-1 : ℝ) : ℂ) * z ^ 2 + ((h * h - 1 : ℝ) : ℂ) * z + ((h * h + 1 : ℝ) : ℂ) = (z + 1) * (z - (1 + h * Complex.I)) * (z - (1 - h * Complex.I)) := by
    intro z
    push_cast
    linear_combination (z * h * h + h * h) * Complex.I_mul_I
  simp only [roots] at hc
  rw [e]
  have hI : ((1 : ℂ) + h * Complex.I).im = h ∧ ((1 : ℂ) + h * Complex.I).re = 1 := by constructor <;> simp
  rcases hc with ⟨⟨z, hz, hi, hr, rfl⟩, hm⟩ | ⟨rfl, hm⟩
  · rw [mul_eq_zero, mul_eq_zero] at hz
    rcases hz with (hz | hz) | hz
    · have : z = -1 := by linear_combination hz
      rw [this] at hr; norm_num at hr
    · rw [sub_eq_zero.1 hz, hI.2]
    · rw [sub_eq_zero.1 hz]; simp
  · exfalso
    refine hm (1 + h * Complex.I) (by simp) ?_ ?_
    · rw [hI.1, abs_of_pos hh]; exact ht
    · rw [hI.2]; norm_num

/-! ## The hypotheses are met -/

/-- The principal branches. -/
example : (∀ z : ℂ, (z ^ (1 / 2 : ℂ)) ^ 2 = z) ∧ ∀ z : ℂ, (z ^ (1 / 3 : ℂ)) ^ 3 = z := by
  constructor <;> intro z
  · have := Complex.cpow_nat_inv_pow z (n := 2) (by norm_num); simpa using this
  · have := Complex.cpow_nat_inv_pow z (n := 3) (by norm_num); simpa using this

/-- 2x²−3x+1 has the roots 1/2 and 1. -/
example : ∃ t, quadRoot 0.001 2 (-3) 1 = some t ∧ SmallestPositive (fun x => 2 * x * x + -3 * x + 1) t :=
  quad_smallest_partial (by norm_num) (by norm_num) (Or.inr ⟨by norm_num, by norm_num, Or.inl (by norm_num)⟩)

/-- (x+1)(x²+1). -/
example {sq cb : ℂ → ℂ} (hsq : ∀ z, sq z ^ 2 = z) (hcb : ∀ z, cb z ^ 3 = z) :
    ∃ t, cubicRoot sq cb 0.001 1 1 1 1 = some t ∧ SmallestPositive (fun x => 1 * x * x * x + 1 * x * x + 1 * x + 1) t := by
  refine cubic_smallest_partial hsq hcb (by norm_num) (by norm_num) (by norm_num) ?_
  intro z hz hi
  have e : (z + 1) * ((z - Complex.I) * (z + Complex.I)) = 0 := by
    push_cast at hz
    linear_combination hz - (z + 1) * Complex.I_mul_I
  rw [mul_eq_zero, mul_eq_zero] at e
  rcases e with h | h | h
  · exfalso; apply hi; have : z = -1 := by linear_combination h
    rw [this]; simp
  · have : z = Complex.I := by linear_combination h
    rw [this]; norm_num
  · have : z = -Complex.I := by linear_combination h
    rw [this]; norm_num

end Verif.MathUtils
