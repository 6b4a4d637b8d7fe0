import Verif.Model.Complex
import Mathlib.Analysis.SpecialFunctions.Trigonometric.Deriv
import Mathlib.Tactic.LinearCombination
import Mathlib.Tactic.FieldSimp
import Mathlib.Tactic.NormNum
import Mathlib.Tactic.Positivity

/-!
Complex numbers (C74): all operators but multiplication are those of ℂ; multiplication is wrong; the functions are those of ℂ; the solvers for
polynomials.
-/
namespace Verif.Cx

open Complex (I)

/-- The complex number a pair stands for. -/
def toC (z : Cx ℝ) : ℂ := ⟨z.re, z.im⟩

theorem toC_injective {z o : Cx ℝ} : toC z = toC o ↔ z = o := by
  constructor
  · intro h
    ext
    · exact congrArg Complex.re h
    · exact congrArg Complex.im h
  · rintro rfl; rfl

/-! ## Operators -/

theorem addR_spec (z : Cx ℝ) (t : ℝ) : toC (addR z t) = toC z + t ∧ toC (rAdd t z) = t + toC z := by
  constructor <;> apply Complex.ext <;> simp [toC, addR, rAdd, add_comm]

theorem subR_spec (z : Cx ℝ) (t : ℝ) : toC (subR z t) = toC z - t ∧ toC (rSub t z) = t - toC z := by
  constructor <;> apply Complex.ext <;> simp [toC, subR, rSub, addR, neg] <;> ring

theorem mulR_spec (z : Cx ℝ) (t : ℝ) : toC (mulR z t) = toC z * t ∧ toC (rMul t z) = t * toC z := by
  constructor <;> apply Complex.ext <;> simp [toC, mulR, rMul, mul_comm]

theorem divR_spec (z : Cx ℝ) (t : ℝ) : toC (divR z t) = toC z / t := by
  apply Complex.ext <;> simp [toC, divR, Complex.div_ofReal_re, Complex.div_ofReal_im]

theorem add_spec (z o : Cx ℝ) : toC (add z o) = toC z + toC o := by apply Complex.ext <;> simp [toC, add]

theorem sub_spec (z o : Cx ℝ) : toC (sub z o) = toC z - toC o := by apply Complex.ext <;> simp [toC, sub]

theorem neg_spec (z : Cx ℝ) : toC (neg z) = -toC z := by apply Complex.ext <;> simp [toC, neg]

theorem div_spec (z o : Cx ℝ) : toC (div z o) = toC z / toC o := by
  rw [div_eq_mul_inv]
  apply Complex.ext <;> simp [toC, div, Complex.inv_re, Complex.inv_im, Complex.normSq_apply] <;> ring

theorem rDiv_spec (z : Cx ℝ) (t : ℝ) : toC (rDiv t z) = t / toC z := by rw [rDiv, div_spec]; rfl

theorem self_spec (z : Cx ℝ) : divSelf z = div z z ∧ subSelf z = sub z z := ⟨rfl, rfl⟩

theorem eq_spec {K : Type} [Field K] [DecidableEq K] (z o : Cx K) : (eq z o = true ↔ z = o) ∧ (ne z o = true ↔ z ≠ o) := by
  have h : z = o ↔ z.re = o.re ∧ z.im = o.im := by constructor; (· rintro rfl; exact ⟨rfl, rfl⟩); (· rintro ⟨h1, h2⟩; ext <;> assumption)
  constructor
  · rw [h]; simp [eq]
  · rw [Ne, h]; simp [ne]; tauto

theorem eqR_spec (z : Cx ℝ) (t : ℝ) : eqR z t = true ↔ toC z = t := by
  rw [Complex.ext_iff]; simp [eqR, toC]

theorem norm_spec (z : Cx ℝ) : norm z = Complex.normSq (toC z) := by simp [norm, toC, Complex.normSq_apply]

theorem conj_spec (z : Cx ℝ) : toC (conj z) = (starRingEnd ℂ) (toC z) := by apply Complex.ext <;> simp [toC, conj]

/-! ## Multiplication -/

/-- The product is right exactly if the second factor is real or the real part does not change. -/
theorem mul_iff (z o : Cx ℝ) : toC (mul z o) = toC z * toC o ↔ o.im = 0 ∨ z.re * o.re - z.im * o.im = z.re := by
  rw [Complex.ext_iff]
  simp only [toC, mul, Complex.mul_re, Complex.mul_im, true_and]
  rw [add_left_inj, mul_eq_mul_right_iff, or_comm]

theorem mulSelf_iff (z : Cx ℝ) : toC (mulSelf z) = toC z * toC z ↔ z.im = 0 ∨ z.re * z.re - z.im * z.im = z.re := by
  rw [Complex.ext_iff]
  simp only [toC, mulSelf, Complex.mul_re, Complex.mul_im, true_and]
  have : (z.re * z.re - z.im * z.im) * z.im + z.im * (z.re * z.re - z.im * z.im) = z.re * z.im + z.im * z.re
      ↔ (z.re * z.re - z.im * z.im - z.re) * z.im = 0 := by
    constructor <;> intro h <;> linarith
  rw [this, mul_eq_zero, sub_eq_zero, or_comm]

/-- The real part is right. -/
theorem mul_re_partial (z o : Cx ℝ) : (toC (mul z o)).re = (toC z * toC o).re := rfl

/-- `i * i` is `-1 - i`. -/
theorem mul_violated : mul (⟨0, 1⟩ : Cx ℚ) ⟨0, 1⟩ = ⟨-1, -1⟩ ∧ mulSelf (⟨0, 1⟩ : Cx ℚ) = ⟨-1, -2⟩ := by decide +kernel

/-- The product does not commute: `(1 + i) * i` is `-1 - i` and `i * (1 + i)` is `-1`, where both should be `-1 + i`. -/
theorem mul_comm_violated : mul (⟨1, 1⟩ : Cx ℚ) ⟨0, 1⟩ = ⟨-1, -1⟩ ∧ mul (⟨0, 1⟩ : Cx ℚ) ⟨1, 1⟩ = ⟨-1, 0⟩ := by decide +kernel

/-! ## Functions -/

theorem abs_spec (z : Cx ℝ) : abs z = ‖toC z‖ := by
  have hn : ‖toC z‖ = Real.sqrt (z.re * z.re + z.im * z.im) := by
    rw [Complex.norm_def, Complex.normSq_apply]; rfl
  simp only [abs]
  split
  · rename_i h
    have h1 : |z.re| = 0 := le_antisymm (h ▸ le_max_left _ _) (abs_nonneg _)
    have h2 : |z.im| = 0 := le_antisymm (h ▸ le_max_right _ _) (abs_nonneg _)
    rw [h, hn, abs_eq_zero.1 h1, abs_eq_zero.1 h2]; simp
  · rename_i h
    have h0 : 0 ≤ max |z.re| |z.im| := le_trans (abs_nonneg _) (le_max_left _ _)
    generalize max |z.re| |z.im| = s at h h0
    rw [hn]
    have e : z.re * z.re + z.im * z.im = s ^ 2 * (z.re / s * (z.re / s) + z.im / s * (z.im / s)) := by field_simp
    rw [e, Real.sqrt_mul (sq_nonneg s), Real.sqrt_sq h0]

theorem arg_spec (z : Cx ℝ) : arg z = Complex.arg (toC z) := rfl

theorem polar_spec (rho theta : ℝ) : toC (polar rho theta) = rho * Complex.exp (theta * I) := by
  rw [Complex.exp_mul_I]
  apply Complex.ext <;> simp [toC, polar, ← Complex.ofReal_cos, ← Complex.ofReal_sin]

theorem exp_spec (z : Cx ℝ) : toC (exp z) = Complex.exp (toC z) := by
  apply Complex.ext <;> simp [toC, exp, polar, Complex.exp_re, Complex.exp_im]

theorem log_spec {z : Cx ℝ} : toC (log z) = Complex.log (toC z) := by
  apply Complex.ext
  · rw [Complex.log_re, ← abs_spec]; rfl
  · rw [Complex.log_im]; rfl

theorem log10_spec {z : Cx ℝ} : toC (log10 z) = Complex.log (toC z) / Complex.log 10 := by
  rw [log10, divR_spec, log_spec, ← Complex.ofReal_ofNat, ← Complex.ofReal_log (by norm_num)]

theorem cos_spec (z : Cx ℝ) : toC (cos z) = Complex.cos (toC z) := by
  have e : toC z = (z.re : ℂ) + z.im * I := by apply Complex.ext <;> simp [toC]
  rw [e, Complex.cos_add_mul_I, ← Complex.ofReal_cos, ← Complex.ofReal_sin, ← Complex.ofReal_cosh, ← Complex.ofReal_sinh]
  apply Complex.ext <;> simp [toC, cos, -Complex.ofReal_cos, -Complex.ofReal_sin, -Complex.ofReal_cosh, -Complex.ofReal_sinh]

theorem sin_spec (z : Cx ℝ) : toC (sin z) = Complex.sin (toC z) := by
  have e : toC z = (z.re : ℂ) + z.im * I := by apply Complex.ext <;> simp [toC]
  rw [e, Complex.sin_add_mul_I, ← Complex.ofReal_cos, ← Complex.ofReal_sin, ← Complex.ofReal_cosh, ← Complex.ofReal_sinh]
  apply Complex.ext <;> simp [toC, sin, -Complex.ofReal_cos, -Complex.ofReal_sin, -Complex.ofReal_cosh, -Complex.ofReal_sinh]

theorem cosh_spec (z : Cx ℝ) : toC (cosh z) = Complex.cosh (toC z) := by
  have e : toC z = (z.re : ℂ) + z.im * I := by apply Complex.ext <;> simp [toC]
  rw [e, Complex.cosh_add, Complex.cosh_mul_I, Complex.sinh_mul_I, ← Complex.ofReal_cos, ← Complex.ofReal_sin, ← Complex.ofReal_cosh,
    ← Complex.ofReal_sinh]
  apply Complex.ext <;> simp [toC, cosh, -Complex.ofReal_cos, -Complex.ofReal_sin, -Complex.ofReal_cosh, -Complex.ofReal_sinh]

theorem sinh_spec (z : Cx ℝ) : toC (sinh z) = Complex.sinh (toC z) := by
  have e : toC z = (z.re : ℂ) + z.im * I := by apply Complex.ext <;> simp [toC]
  rw [e, Complex.sinh_add, Complex.cosh_mul_I, Complex.sinh_mul_I, ← Complex.ofReal_cos, ← Complex.ofReal_sin, ← Complex.ofReal_cosh,
    ← Complex.ofReal_sinh]
  apply Complex.ext <;> simp [toC, sinh, -Complex.ofReal_cos, -Complex.ofReal_sin, -Complex.ofReal_cosh, -Complex.ofReal_sinh]

theorem tan_spec (z : Cx ℝ) : toC (tan z) = Complex.tan (toC z) := by rw [tan, div_spec, sin_spec, cos_spec]; rfl

theorem tanh_spec (z : Cx ℝ) : toC (tanh z) = Complex.tanh (toC z) := by rw [tanh, div_spec, sinh_spec, cosh_spec]; rfl

/-- The square root: its square is the number, and it lies in the right half plane, on the upper imaginary axis for negative numbers. -/
theorem sqrt_spec (z : Cx ℝ) : toC (sqrt z) ^ 2 = toC z ∧ 0 ≤ (sqrt z).re ∧ ((sqrt z).re = 0 → 0 ≤ (sqrt z).im) := by
  have hsq : ∀ w : Cx ℝ, w.re * w.re - w.im * w.im = z.re → w.re * w.im + w.im * w.re = z.im → toC w ^ 2 = toC z := by
    intro w h1 h2
    rw [pow_two]
    apply Complex.ext
    · rw [Complex.mul_re]; exact h1
    · rw [Complex.mul_im]; exact h2
  by_cases h0 : z.re = 0
  · have e : sqrt z = ⟨Real.sqrt (|z.im| / 2), if z.im < 0 then -Real.sqrt (|z.im| / 2) else Real.sqrt (|z.im| / 2)⟩ := if_pos h0
    have ht := Real.mul_self_sqrt (show 0 ≤ |z.im| / 2 by positivity)
    have hp := Real.sqrt_nonneg (|z.im| / 2)
    by_cases hi : z.im < 0
    · rw [e, if_pos hi]
      rw [abs_of_neg hi] at ht hp ⊢
      refine ⟨hsq _ ?_ ?_, hp, fun h => ?_⟩
      · show _ * _ - -_ * -_ = _; rw [h0]; ring
      · show _ * -_ + -_ * _ = _; linarith
      · have h' : Real.sqrt (-z.im / 2) = 0 := h
        show 0 ≤ -Real.sqrt (-z.im / 2)
        rw [h']; norm_num
    · rw [e, if_neg hi]
      rw [abs_of_nonneg (not_lt.1 hi)] at ht hp ⊢
      refine ⟨hsq _ ?_ ?_, hp, fun _ => hp⟩
      · show _ * _ - _ * _ = _; rw [h0]; ring
      · show _ * _ + _ * _ = _; linarith
  · have hn : abs z * abs z = z.re * z.re + z.im * z.im := by
      rw [abs_spec, ← pow_two, Complex.sq_norm, Complex.normSq_apply]; rfl
    have ha : 0 ≤ abs z := by rw [abs_spec]; exact norm_nonneg _
    have hx : 0 < |z.re| := abs_pos.2 h0
    have e : sqrt z = (if z.re > 0 then ⟨Real.sqrt (2 * (abs z + |z.re|)) / 2, z.im / Real.sqrt (2 * (abs z + |z.re|))⟩
      else ⟨|z.im| / Real.sqrt (2 * (abs z + |z.re|)), if z.im < 0 then -(Real.sqrt (2 * (abs z + |z.re|)) / 2) else Real.sqrt (2 * (abs z + |z.re|)) / 2⟩) :=
      if_neg h0
    have ht := Real.mul_self_sqrt (show 0 ≤ 2 * (abs z + |z.re|) by positivity)
    have hp : 0 < Real.sqrt (2 * (abs z + |z.re|)) := Real.sqrt_pos.2 (by positivity)
    generalize Real.sqrt (2 * (abs z + |z.re|)) = t at e ht hp
    generalize abs z = r at hn ha ht
    have ht0 : t ≠ 0 := hp.ne'
    by_cases h1 : z.re > 0
    · rw [e, if_pos h1]
      rw [abs_of_pos h1] at ht
      have key : t * t * (t * t) - 4 * (z.im * z.im) = 4 * z.re * (t * t) := by rw [ht]; linear_combination 4 * hn
      refine ⟨hsq _ ?_ ?_, (by positivity : 0 ≤ t / 2), fun h => absurd h (by positivity)⟩
      · show t / 2 * (t / 2) - z.im / t * (z.im / t) = z.re
        field_simp
        linear_combination key
      · show t / 2 * (z.im / t) + z.im / t * (t / 2) = z.im
        field_simp; ring
    · have h2 : z.re < 0 := lt_of_le_of_ne (not_lt.1 h1) h0
      rw [e, if_neg h1]
      rw [abs_of_neg h2] at ht
      have key : 4 * (z.im * z.im) - t * t * (t * t) = 4 * z.re * (t * t) := by rw [ht]; linear_combination -4 * hn
      have hz : |z.im| * |z.im| = z.im * z.im := abs_mul_abs_self _
      by_cases hi : z.im < 0
      · rw [if_pos hi]
        refine ⟨hsq _ ?_ ?_, (by positivity : 0 ≤ |z.im| / t), fun h => ?_⟩
        · show |z.im| / t * (|z.im| / t) - -(t / 2) * -(t / 2) = z.re
          field_simp
          linear_combination 4 * hz + key
        · show |z.im| / t * -(t / 2) + -(t / 2) * (|z.im| / t) = z.im
          rw [abs_of_neg hi]; field_simp; ring
        · have h' : |z.im| / t = 0 := h
          have : 0 < |z.im| / t := div_pos (abs_pos.2 hi.ne) hp
          exact absurd h' this.ne'
      · rw [if_neg hi]
        refine ⟨hsq _ ?_ ?_, (by positivity : 0 ≤ |z.im| / t), fun _ => (by positivity : 0 ≤ t / 2)⟩
        · show |z.im| / t * (|z.im| / t) - t / 2 * (t / 2) = z.re
          field_simp
          linear_combination 4 * hz + key
        · show |z.im| / t * (t / 2) + t / 2 * (|z.im| / t) = z.im
          rw [abs_of_nonneg (not_lt.1 hi)]; field_simp; ring

/-- Powers with a real exponent. -/
theorem powR_spec {x : Cx ℝ} (y : ℝ) (hx : x ≠ ⟨0, 0⟩) : toC (powR x y) = toC x ^ (y : ℂ) := by
  have hx0 : toC x ≠ 0 := fun h => hx (toC_injective.1 h)
  by_cases h : x.im = 0 ∧ x.re > 0
  · have e : powR x y = ofR (x.re ^ y) := if_pos h
    have e2 : toC x = (x.re : ℂ) := by apply Complex.ext <;> simp [toC, h.1]
    rw [e, e2, ← Complex.ofReal_cpow h.2.le]; rfl
  · have e : powR x y = polar (Real.exp (y * (log x).re)) (y * (log x).im) := if_neg h
    rw [e, polar_spec, Complex.cpow_def_of_ne_zero hx0, ← log_spec, Complex.ofReal_exp, ← Complex.exp_add]
    congr 1
    apply Complex.ext <;> simp [toC] <;> ring

/-- Powers of positive numbers. -/
theorem pow_partial {x : Cx ℝ} (y : Cx ℝ) (h0 : x.im = 0) (h1 : 0 < x.re) : toC (pow x y) = toC x ^ toC y := by
  have hx : x ≠ ⟨0, 0⟩ := by rintro rfl; exact lt_irrefl _ h1
  have hx0 : toC x ≠ 0 := fun h => hx (toC_injective.1 h)
  have e : pow x y = exp (mul y (log x)) := if_neg hx
  have hl : (log x).im = 0 := by
    have e2 : toC x = (x.re : ℂ) := by apply Complex.ext <;> simp [toC, h0]
    show arg x = 0
    rw [arg_spec, e2, Complex.arg_ofReal_of_nonneg h1.le]
  rw [e, exp_spec, (mul_iff _ _).2 (Or.inl hl), Complex.cpow_def_of_ne_zero hx0, log_spec, mul_comm]

/-- `(-1) ^ 1` is `1`. -/
theorem pow_violated : pow ⟨-1, 0⟩ ⟨1, 0⟩ = ⟨1, 0⟩ := by
  have ha : arg ⟨-1, 0⟩ = Real.pi := by
    rw [arg_spec]
    have : toC ⟨-1, 0⟩ = -1 := by apply Complex.ext <;> simp [toC]
    rw [this, Complex.arg_neg_one]
  have hb : abs ⟨-1, 0⟩ = 1 := by rw [abs_spec]; have : toC ⟨-1, 0⟩ = -1 := by { apply Complex.ext <;> simp [toC] }
                                  rw [this]; simp
  have hl : log ⟨-1, 0⟩ = ⟨0, Real.pi⟩ := by simp [log, ha, hb]
  have e : pow ⟨-1, 0⟩ ⟨1, 0⟩ = exp (mul ⟨1, 0⟩ (log ⟨-1, 0⟩)) := if_neg (by simp)
  rw [e, hl]
  simp [mul, exp, polar]

/-- `asinh` inverts `sinh`. -/
theorem asinh_spec (z : Cx ℝ) : Complex.sinh (toC (asinh z)) = toC z := by
  let t : Cx ℝ := ⟨(z.re - z.im) * (z.re + z.im) + 1, 2 * z.re * z.im⟩
  have ht : toC t = toC z ^ 2 + 1 := by
    rw [pow_two]; apply Complex.ext <;> simp [toC, t] <;> ring
  have hs : toC (sqrt t) ^ 2 = toC z ^ 2 + 1 := by rw [(sqrt_spec t).1, ht]
  have e : asinh z = log (add (sqrt t) z) := rfl
  rw [e, log_spec, add_spec]
  generalize toC (sqrt t) = s at hs
  have h1 : (s + toC z) * (s - toC z) = 1 := by linear_combination hs
  have h0 : s + toC z ≠ 0 := fun h => by rw [h, zero_mul] at h1; exact zero_ne_one h1
  have h2 : (s + toC z)⁻¹ = s - toC z := inv_eq_of_mul_eq_one_right h1
  rw [Complex.sinh, Complex.exp_neg, Complex.exp_log h0, h2]
  ring

/-- `acosh` inverts `cosh`. -/
theorem acosh_spec (z : Cx ℝ) : Complex.cosh (toC (acosh z)) = toC z := by
  have hp := (sqrt_spec (rMul (1 / 2) (addR z 1))).1
  have hq := (sqrt_spec (rMul (1 / 2) (subR z 1))).1
  rw [(mulR_spec _ _).2, (addR_spec _ _).1] at hp
  rw [(mulR_spec _ _).2, (subR_spec _ _).1] at hq
  rw [acosh, (mulR_spec _ _).2, log_spec, add_spec]
  generalize toC (sqrt (rMul (1 / 2) (addR z 1))) = p at hp
  generalize toC (sqrt (rMul (1 / 2) (subR z 1))) = q at hq
  push_cast at hp hq ⊢
  have h1 : (p + q) * (p - q) = 1 := by linear_combination hp - hq
  have h0 : p + q ≠ 0 := fun h => by rw [h, zero_mul] at h1; exact zero_ne_one h1
  have h2 : (p + q)⁻¹ = p - q := inv_eq_of_mul_eq_one_right h1
  rw [Complex.cosh, Complex.exp_neg, two_mul, Complex.exp_add, Complex.exp_log h0, mul_inv, h2]
  linear_combination hp + hq

/-- `atan` inverts `tan` (at `i` and `-i` the tangent has no inverse). -/
theorem atan_spec {z : Cx ℝ} (h1 : z ≠ ⟨0, 1⟩) (h2 : z ≠ ⟨0, -1⟩) : Complex.tan (toC (atan z)) = toC z := by
  have ha : 1 + I * toC z ≠ 0 := by
    intro h
    have hr := congrArg Complex.re h
    have hi := congrArg Complex.im h
    simp [toC] at hr hi
    exact h1 (by ext; exact hi; linarith)
  have hb : 1 - I * toC z ≠ 0 := by
    intro h
    have hr := congrArg Complex.re h
    have hi := congrArg Complex.im h
    simp [toC] at hr hi
    exact h2 (by ext; exact hi; linarith)
  have hnum : (z.re * z.re + (z.im + 1) * (z.im + 1)) = Complex.normSq (1 - I * toC z) := by
    simp [Complex.normSq_apply, toC]; ring
  have hden : (z.re * z.re + (z.im - 1) * (z.im - 1)) = Complex.normSq (1 + I * toC z) := by
    simp [Complex.normSq_apply, toC]; ring
  have hu : (⟨1 - z.re * z.re - z.im * z.im, 2 * z.re⟩ : ℂ) = (1 + I * toC z) * (starRingEnd ℂ) (1 - I * toC z) := by
    apply Complex.ext <;> simp [toC] <;> ring
  have hn0 := Complex.normSq_pos.2 hb
  have hd0 := Complex.normSq_pos.2 ha
  have hc0 : (starRingEnd ℂ) (1 - I * toC z) ≠ 0 := (map_ne_zero _).2 hb
  have e : atan z = ⟨1 / 2 * Complex.arg ⟨1 - z.re * z.re - z.im * z.im, 2 * z.re⟩,
    1 / 4 * Real.log ((z.re * z.re + (z.im + 1) * (z.im + 1)) / (z.re * z.re + (z.im - 1) * (z.im - 1)))⟩ := rfl
  rw [hnum, hden, hu, Real.log_div hn0.ne' hd0.ne'] at e
  have hlog : 2 * (I * toC (atan z)) = Complex.log ((1 + I * toC z) * (starRingEnd ℂ) (1 - I * toC z))
      - (Real.log (Complex.normSq (1 - I * toC z)) : ℝ) := by
    rw [e]
    apply Complex.ext
    · simp only [Complex.sub_re, Complex.log_re, Complex.ofReal_re, norm_mul, RCLike.norm_conj]
      rw [Real.log_mul (by simpa using ha) (by simpa using hb), Complex.normSq_eq_norm_sq, Complex.normSq_eq_norm_sq, Real.log_pow, Real.log_pow]
      simp [toC]; ring
    · simp [Complex.log_im, toC]
  have hE : Complex.exp (I * toC (atan z)) * Complex.exp (I * toC (atan z)) * (1 - I * toC z) = 1 + I * toC z := by
    rw [← Complex.exp_add, ← two_mul, hlog, Complex.exp_sub, Complex.exp_log (mul_ne_zero ha hc0), ← Complex.ofReal_exp, Real.exp_log hn0,
      ← Complex.mul_conj]
    field_simp
  have hw := Complex.exp_ne_zero (I * toC (atan z))
  have hcos : Complex.cos (toC (atan z)) = (Complex.exp (I * toC (atan z)) + (Complex.exp (I * toC (atan z)))⁻¹) / 2 := by
    rw [Complex.cos, ← Complex.exp_neg]; congr 3 <;> ring
  have hsin : Complex.sin (toC (atan z)) = ((Complex.exp (I * toC (atan z)))⁻¹ - Complex.exp (I * toC (atan z))) * I / 2 := by
    rw [Complex.sin, ← Complex.exp_neg]; congr 4 <;> ring
  rw [Complex.tan, hcos, hsin]
  generalize Complex.exp (I * toC (atan z)) = E at hE hw
  have hp : E * E + 1 ≠ 0 := by
    intro h
    have : (2 : ℂ) = 0 := by linear_combination (1 - I * toC z) * h - hE
    norm_num at this
  have hI : I * I = -1 := Complex.I_mul_I
  rw [div_eq_iff]
  · field_simp
    linear_combination (-I) * hE + (-toC z - E * E * toC z) * hI
  · intro h
    apply hp
    field_simp at h
    linear_combination h

/-- `atanh` inverts `tanh`. -/
theorem atanh_spec {z : Cx ℝ} (h1 : z ≠ ⟨1, 0⟩) (h2 : z ≠ ⟨-1, 0⟩) : Complex.tanh (toC (atanh z)) = toC z := by
  have ha : 1 + toC z ≠ 0 := by
    intro h
    have hr := congrArg Complex.re h
    have hi := congrArg Complex.im h
    simp [toC] at hr hi
    exact h2 (by ext; (· show z.re = -1; linarith); exact hi)
  have hb : 1 - toC z ≠ 0 := by
    intro h
    have hr := congrArg Complex.re h
    have hi := congrArg Complex.im h
    simp [toC] at hr hi
    exact h1 (by ext; (· show z.re = 1; linarith); exact hi)
  have hnum : (z.im * z.im + (1 + z.re) * (1 + z.re)) = Complex.normSq (1 + toC z) := by
    simp [Complex.normSq_apply, toC]; ring
  have hden : (z.im * z.im + (1 - z.re) * (1 - z.re)) = Complex.normSq (1 - toC z) := by
    simp [Complex.normSq_apply, toC]; ring
  have hu : (⟨1 - z.im * z.im - z.re * z.re, 2 * z.im⟩ : ℂ) = (1 + toC z) * (starRingEnd ℂ) (1 - toC z) := by
    apply Complex.ext <;> simp [toC] <;> ring
  have hn0 := Complex.normSq_pos.2 hb
  have hc0 : (starRingEnd ℂ) (1 - toC z) ≠ 0 := (map_ne_zero _).2 hb
  have e : atanh z = ⟨1 / 4 * (Real.log (z.im * z.im + (1 + z.re) * (1 + z.re)) - Real.log (z.im * z.im + (1 - z.re) * (1 - z.re))),
    1 / 2 * Complex.arg ⟨1 - z.im * z.im - z.re * z.re, 2 * z.im⟩⟩ := rfl
  rw [hnum, hden, hu] at e
  have hlog : 2 * toC (atanh z) = Complex.log ((1 + toC z) * (starRingEnd ℂ) (1 - toC z))
      - (Real.log (Complex.normSq (1 - toC z)) : ℝ) := by
    rw [e]
    apply Complex.ext
    · simp only [Complex.sub_re, Complex.log_re, Complex.ofReal_re, norm_mul, RCLike.norm_conj]
      rw [Real.log_mul (by simpa using ha) (by simpa using hb), Complex.normSq_eq_norm_sq, Complex.normSq_eq_norm_sq, Real.log_pow, Real.log_pow]
      simp [toC]; ring
    · simp [Complex.log_im, toC]
  have hE : Complex.exp (toC (atanh z)) * Complex.exp (toC (atanh z)) * (1 - toC z) = 1 + toC z := by
    rw [← Complex.exp_add, ← two_mul, hlog, Complex.exp_sub, Complex.exp_log (mul_ne_zero ha hc0), ← Complex.ofReal_exp, Real.exp_log hn0,
      ← Complex.mul_conj]
    field_simp
  have hw := Complex.exp_ne_zero (toC (atanh z))
  rw [Complex.tanh_eq_sinh_div_cosh, Complex.sinh, Complex.cosh, Complex.exp_neg]
  generalize Complex.exp (toC (atanh z)) = E at hE hw
  have hp : E * E + 1 ≠ 0 := by
    intro h
    have : (2 : ℂ) = 0 := by linear_combination (1 - toC z) * h - hE
    norm_num at this
  rw [div_eq_iff]
  · field_simp
    linear_combination hE
  · intro h
    apply hp
    field_simp at h
    linear_combination h

/-! ## Roots -/

/-- A straight line. -/
theorem quadRoot_linear {a b c tol : ℝ} (ha : |a| ≤ tol) (hb : b ≠ 0) : b * quadRoot a b c tol + c = 0 := by
  rw [quadRoot, if_pos ha]; field_simp; ring

/-- A parabola open to the top with two different roots: the result is the least root that is not negative, and negative if there is none. -/
theorem quadRoot_partial {a b c tol : ℝ} (ht : 0 ≤ tol) (ha : tol < a) (hd : 0 < b * b - 4 * a * c) :
    (∀ x, 0 ≤ x → a * x * x + b * x + c = 0 →
      0 ≤ quadRoot a b c tol ∧ a * quadRoot a b c tol * quadRoot a b c tol + b * quadRoot a b c tol + c = 0 ∧ quadRoot a b c tol ≤ x) ∧
    ((∀ x, 0 ≤ x → a * x * x + b * x + c ≠ 0) → quadRoot a b c tol < 0) := by
  have ha0 : 0 < a := lt_of_le_of_lt ht ha
  have e : quadRoot a b c tol = if (-b - Real.sqrt (b * b - 4 * a * c)) / (2 * a) < 0 then (-b + Real.sqrt (b * b - 4 * a * c)) / (2 * a)
      else (-b - Real.sqrt (b * b - 4 * a * c)) / (2 * a) := by
    rw [quadRoot, if_neg (by rw [abs_of_pos ha0]; exact not_le.2 ha)]
    exact if_pos hd
  have hs := Real.mul_self_sqrt hd.le
  have hp := Real.sqrt_pos.2 hd
  generalize Real.sqrt (b * b - 4 * a * c) = s at e hs hp
  have hr1 : a * ((-b - s) / (2 * a)) * ((-b - s) / (2 * a)) + b * ((-b - s) / (2 * a)) + c = 0 := by field_simp; linear_combination hs
  have hr2 : a * ((-b + s) / (2 * a)) * ((-b + s) / (2 * a)) + b * ((-b + s) / (2 * a)) + c = 0 := by field_simp; linear_combination hs
  have hlt : (-b - s) / (2 * a) < (-b + s) / (2 * a) := by apply div_lt_div_of_pos_right <;> linarith
  have hor : ∀ x, a * x * x + b * x + c = 0 → x = (-b - s) / (2 * a) ∨ x = (-b + s) / (2 * a) := by
    intro x hx
    have : (2 * a * x + b + s) * (2 * a * x + b - s) = 0 := by linear_combination 4 * a * hx - hs
    rcases mul_eq_zero.1 this with h | h
    · left; rw [eq_div_iff (by positivity)]; linarith
    · right; rw [eq_div_iff (by positivity)]; linarith
  generalize (-b - s) / (2 * a) = r1 at *
  generalize (-b + s) / (2 * a) = r2 at *
  constructor
  · intro x hx0 hx
    rw [e]
    split
    · rename_i h
      rcases hor x hx with h' | h'
      · exact absurd hx0 (by rw [h']; exact not_le.2 h)
      · exact ⟨h' ▸ hx0, hr2, h'.ge⟩
    · rename_i h
      refine ⟨not_lt.1 h, hr1, ?_⟩
      rcases hor x hx with h' | h'
      · exact h'.ge
      · rw [h']; exact hlt.le
  · intro h
    rw [e]
    split
    · exact not_le.1 fun h0 => h r2 h0 hr2
    · rename_i h'
      exact absurd hr1 (h r1 (not_lt.1 h'))

example : (0 : ℝ) ≤ 1 / 2 ∧ (1 / 2 : ℝ) < 1 ∧ (0 : ℝ) < -3 * -3 - 4 * 1 * 2 := by norm_num

/-- No root: `-1`. -/
theorem quadRoot_none {a b c tol : ℝ} (ha : tol < |a|) (hd : b * b - 4 * a * c < 0) :
    quadRoot a b c tol = -1 ∧ ∀ x, a * x * x + b * x + c ≠ 0 := by
  constructor
  · rw [quadRoot, if_neg (not_le.2 ha)]; exact if_neg (not_lt.2 hd.le)
  · intro x hx
    have : (2 * a * x + b) * (2 * a * x + b) = b * b - 4 * a * c := by linear_combination 4 * a * hx
    nlinarith [mul_self_nonneg (2 * a * x + b)]

/-- `-x² + 3x - 2` has the roots 1 and 2: the result is 2. -/
theorem quadRoot_order_violated {tol : ℝ} (ht : tol < 1) : quadRoot (-1) 3 (-2) tol = 2 := by
  have hs : Real.sqrt (3 * 3 - 4 * (-1) * (-2)) = 1 := by rw [show (3 * 3 - 4 * (-1) * (-2) : ℝ) = 1 by norm_num]; exact Real.sqrt_one
  rw [quadRoot, if_neg (by rw [abs_neg, abs_one]; exact not_le.2 ht)]
  simp only [hs]
  norm_num

/-- `x² - 2x + 1` has the root 1: the result is -1. -/
theorem quadRoot_double_violated {tol : ℝ} (ht : tol < 1) : quadRoot 1 (-2) 1 tol = -1 := by
  rw [quadRoot, if_neg (by rw [abs_one]; exact not_le.2 ht)]
  norm_num

/-- `x³ - x` has the roots -1, 0 and 1: the result is 7/6. -/
theorem cubicRoot_violated {tol : ℝ} (h0 : 0 < tol) (h1 : tol < 1) : cubicRoot 1 0 (-1) 0 tol = 7 / 6 := by
  have h3 : Real.sqrt 3 * Real.sqrt 3 = 3 := Real.mul_self_sqrt (by norm_num)
  have hp : 0 < Real.sqrt 3 := Real.sqrt_pos.2 (by norm_num)
  have hroot : sqrt (sub (mul ⟨0, 0⟩ ⟨0, 0⟩) (mul (mul (rMul 4 ⟨3, 0⟩) ⟨3, 0⟩) ⟨3, 0⟩)) = ⟨0, 6 * Real.sqrt 3⟩ := by
    have e : sub (mul (⟨0, 0⟩ : Cx ℝ) ⟨0, 0⟩) (mul (mul (rMul 4 ⟨3, 0⟩) ⟨3, 0⟩) ⟨3, 0⟩) = ⟨-108, 0⟩ := by
      simp [sub, mul, rMul, mulR]; norm_num
    have ea : abs ⟨-108, 0⟩ = 108 := by
      rw [abs_spec]
      have : toC ⟨-108, 0⟩ = ((-108 : ℝ) : ℂ) := by apply Complex.ext <;> simp [toC]
      rw [this, Complex.norm_real]; norm_num
    have hs : Real.sqrt (2 * (108 + 108)) = 12 * Real.sqrt 3 := by
      rw [show (2 * (108 + 108) : ℝ) = 12 ^ 2 * 3 by norm_num, Real.sqrt_mul (by norm_num), Real.sqrt_sq (by norm_num)]
    have h108 : |(-108 : ℝ)| = 108 := by norm_num
    rw [e]
    simp only [sqrt, ea, h108, hs]
    norm_num
    ring
  have hC : powR ⟨0, 3 * Real.sqrt 3⟩ (1 / 3) = ⟨3 / 2, Real.sqrt 3 / 2⟩ := by
    have hq : (0 : ℝ) < 3 * Real.sqrt 3 := by positivity
    have ec : toC ⟨0, 3 * Real.sqrt 3⟩ = ((3 * Real.sqrt 3 : ℝ) : ℂ) * I := by apply Complex.ext <;> simp [toC]
    have ea : abs ⟨0, 3 * Real.sqrt 3⟩ = 3 * Real.sqrt 3 := by
      rw [abs_spec, ec, norm_mul, Complex.norm_real, Complex.norm_I, mul_one, Real.norm_of_nonneg hq.le]
    have er : arg ⟨0, 3 * Real.sqrt 3⟩ = Real.pi / 2 := by
      rw [arg_spec, ec, Complex.arg_real_mul _ hq, Complex.arg_I]
    have ex : Real.exp (1 / 3 * Real.log (3 * Real.sqrt 3)) = Real.sqrt 3 := by
      have : Real.log (3 * Real.sqrt 3) = 3 * Real.log (Real.sqrt 3) := by
        rw [show (3 : ℝ) * Real.sqrt 3 = Real.sqrt 3 ^ 3 by rw [pow_succ, pow_two, h3], Real.log_pow]; norm_num
      rw [this, ← mul_assoc, show (1 / 3 * 3 : ℝ) = 1 by norm_num, one_mul, Real.exp_log hp]
    have ep : (1 / 3 * (Real.pi / 2) : ℝ) = Real.pi / 6 := by ring
    rw [powR, if_neg (by rintro ⟨h, -⟩; exact hq.ne' h)]
    simp only [log, ea, er, ex, polar, ep, Real.cos_pi_div_six, Real.sin_pi_div_six]
    ext
    · show Real.sqrt 3 * (Real.sqrt 3 / 2) = 3 / 2; linarith
    · show Real.sqrt 3 * (1 / 2) = Real.sqrt 3 / 2; ring
  have hC0 : abs ⟨3 / 2, Real.sqrt 3 / 2⟩ ≠ 0 := by
    rw [abs_spec, norm_ne_zero_iff]
    intro h
    have := congrArg Complex.re h
    norm_num [toC] at this
  have hi : divR (add ⟨0, 0⟩ ⟨0, 6 * Real.sqrt 3⟩) 2 = (⟨0, 3 * Real.sqrt 3⟩ : Cx ℝ) := by
    simp [divR, add]; ring
  have hd0 : (⟨0 * 0 - 3 * 1 * -1, 0⟩ : Cx ℝ) = ⟨3, 0⟩ := by norm_num
  have hd1 : (⟨2 * 0 * 0 * 0 - 9 * 1 * 0 * -1 + 27 * 1 * 1 * 0, 0⟩ : Cx ℝ) = ⟨0, 0⟩ := by norm_num
  have hu2 : mul (divR (rAdd (-1) (rMul (Real.sqrt 3) ⟨0, 1⟩)) 2) ⟨3 / 2, Real.sqrt 3 / 2⟩ = (⟨-3 / 2, 0⟩ : Cx ℝ) := by
    ext
    · simp [mul, divR, rAdd, addR, rMul, mulR]; linarith
    · simp [mul, divR, rAdd, addR, rMul, mulR]; linear_combination (-Real.sqrt 3 / 8) * h3
  have hu3 : mul (divR (rSub (-1) (rMul (Real.sqrt 3) ⟨0, 1⟩)) 2) ⟨3 / 2, Real.sqrt 3 / 2⟩ = (⟨0, -3 * Real.sqrt 3 / 4⟩ : Cx ℝ) := by
    ext
    · simp [mul, divR, rSub, neg, addR, rMul, mulR]; linarith
    · simp [mul, divR, rSub, neg, addR, rMul, mulR]; linear_combination (Real.sqrt 3 / 8) * h3
  have ht1 : (divR (add (rAdd 0 ⟨3 / 2, Real.sqrt 3 / 2⟩) (div ⟨3, 0⟩ ⟨3 / 2, Real.sqrt 3 / 2⟩)) (-3 * 1) : Cx ℝ) = ⟨-1, 0⟩ := by
    have hn : (3 / 2 * (3 / 2) + Real.sqrt 3 / 2 * (Real.sqrt 3 / 2) : ℝ) = 3 := by linarith
    ext
    · simp only [divR, add, rAdd, addR, div, hn]; norm_num
    · simp only [divR, add, rAdd, addR, div, hn]; ring
  have ht2 : (divR (add (rAdd 0 ⟨-3 / 2, 0⟩) (div ⟨3, 0⟩ ⟨-3 / 2, 0⟩)) (-3 * 1) : Cx ℝ) = ⟨7 / 6, 0⟩ := by
    simp only [divR, add, rAdd, addR, div]; norm_num
  have ht3 : (divR (add (rAdd 0 ⟨0, -3 * Real.sqrt 3 / 4⟩) (div ⟨3, 0⟩ ⟨0, -3 * Real.sqrt 3 / 4⟩)) (-3 * 1) : Cx ℝ).re = 0 := by
    simp [divR, add, rAdd, addR, div]
  rw [cubicRoot, if_neg (by rw [abs_one]; exact not_le.2 h1)]
  simp only [hd0, hd1, hroot, hi, hC, if_neg hC0, hu2, hu3, ht1, ht2, ht3]
  norm_num [h0]

end Verif.Cx
