import Verif.Model.MathUtils
import Verif.Model.Elastic
import Verif.Spec.MathUtils
import Mathlib.Analysis.SpecialFunctions.Log.Deriv
import Mathlib.Tactic.Linarith
import Mathlib.Tactic.FieldSimp
import Mathlib.Tactic.LinearCombination

/-!
Newton's iteration for the square root; the formulas for roots of polynomials.
-/
namespace Verif.MathUtils

/-! ## Newton's iteration -/

theorem newton_step {n s x : ℝ} (hx : 0 < x) (hs : 0 < s) (hn : s * s = n) :
    0.5 * (x + n / x) - s = (x - s) * (x - s) / (2 * x) ∧ 0.5 * (x + n / x) - x = (s - x) * (s + x) / (2 * x) ∧ s ≤ 0.5 * (x + n / x) := by
  have e1 : 0.5 * (x + n / x) - s = (x - s) * (x - s) / (2 * x) := by rw [← hn]; field_simp; ring
  refine ⟨e1, by rw [← hn]; field_simp; ring, ?_⟩
  have : 0 ≤ (x - s) * (x - s) / (2 * x) := div_nonneg (mul_self_nonneg _) (by linarith)
  linarith

/-- What holds of a result: it comes from a step that moved by no more than the tolerance. -/
theorem newtonLoop_val {n s tol : ℝ} (hs : 0 < s) (hn : s * s = n) : ∀ (k : Nat) {xn x : ℝ}, 0 < xn → newtonLoop n tol k xn = .val x →
    ∃ y, 0 < y ∧ x = 0.5 * (y + n / y) ∧ |x - y| ≤ tol := by
  intro k
  induction k with
  | zero => intro xn x _ h; simp [newtonLoop] at h
  | succ k ih =>
    intro xn x hx h
    simp only [newtonLoop] at h
    have hp := (newton_step hx hs hn).2.2
    split_ifs at h with hc
    · exact ih (by linarith) h
    · simp only [Out.val.injEq] at h
      exact ⟨xn, hx, h.symm, by rw [← h]; linarith⟩

theorem newtonLoop_mono {n tol : ℝ} : ∀ (k : Nat) {j : Nat} {xn x : ℝ}, k ≤ j → newtonLoop n tol k xn = .val x → newtonLoop n tol j xn = .val x := by
  intro k
  induction k with
  | zero => intro j xn x _ h; simp [newtonLoop] at h
  | succ k ih =>
    intro j xn x hj h
    obtain ⟨j, rfl⟩ : ∃ i, j = i + 1 := ⟨j - 1, by omega⟩
    simp only [newtonLoop] at h ⊢
    split_ifs at h ⊢ with hc
    · exact ih (by omega) h
    · exact h

/-- The distance to the root halves. -/
theorem newtonLoop_ends {n s tol : ℝ} (hs : 0 < s) (hn : s * s = n) : ∀ (k : Nat) {xn : ℝ}, s ≤ xn → xn - s ≤ tol * 2 ^ k →
    ∃ x, newtonLoop n tol (k + 1) xn = .val x := by
  intro k
  induction k with
  | zero =>
    intro xn hx h
    have hx0 : 0 < xn := by linarith
    obtain ⟨e1, e2, e3⟩ := newton_step hx0 hs hn
    have : |0.5 * (xn + n / xn) - xn| ≤ tol := by
      rw [abs_le]
      have h2 : 0.5 * (xn + n / xn) - xn ≤ 0 := by
        rw [e2]; exact div_nonpos_of_nonpos_of_nonneg (mul_nonpos_of_nonpos_of_nonneg (by linarith) (by linarith)) (by linarith)
      constructor <;> linarith
    exact ⟨_, by simp only [newtonLoop]; rw [if_neg (not_lt.2 this)]⟩
  | succ k ih =>
    intro xn hx h
    have hx0 : 0 < xn := by linarith
    obtain ⟨e1, e2, e3⟩ := newton_step hx0 hs hn
    simp only [newtonLoop]
    by_cases hc : |0.5 * (xn + n / xn) - xn| > tol
    · rw [if_pos hc]
      refine ih e3 ?_
      have : 0.5 * (xn + n / xn) - s ≤ (xn - s) / 2 := by
        rw [e1, div_le_div_iff₀ (by linarith) two_pos]
        nlinarith
      rw [pow_succ] at h
      linarith
    · rw [if_neg hc]; exact ⟨_, rfl⟩

/-- The last value is not much below the tolerance. -/
theorem newtonLoop_ge {n s tol : ℝ} (hs : 0 < s) (hn : s * s = n) : ∀ (k : Nat) {xn x : ℝ}, 0 < xn → tol ≤ 2 * (0.5 * (xn + n / xn)) →
    newtonLoop n tol k xn = .val x → tol ≤ 4 * x := by
  intro k
  induction k with
  | zero => intro xn x _ _ h; simp [newtonLoop] at h
  | succ k ih =>
    intro xn x hx ht h
    simp only [newtonLoop] at h
    obtain ⟨e1, e2, e3⟩ := newton_step hx hs hn
    split_ifs at h with hc
    · generalize 0.5 * (xn + n / xn) = y at *
      have hy : 0 < y := by linarith
      have hny : 0 < n / y := div_pos (by rw [← hn]; positivity) hy
      by_cases hk : k = 0
      · subst hk; simp [newtonLoop] at h
      obtain ⟨j, rfl⟩ : ∃ i, k = i + 1 := ⟨k - 1, by omega⟩
      simp only [newtonLoop] at h
      split_ifs at h with hd
      · -- the step from `y` still moves by more than the tolerance, so `y` exceeds it
        have f := newton_step hy hs hn
        have hgt : tol < y := by
          rw [abs_of_nonpos (by
            rw [f.2.1]; exact div_nonpos_of_nonpos_of_nonneg (mul_nonpos_of_nonpos_of_nonneg (by linarith) (by linarith)) (by linarith))] at hd
          linarith
        refine ih hy ?_ (by simp only [newtonLoop]; rw [if_pos hd]; exact h)
        linarith
      · simp only [Out.val.injEq] at h
        rw [← h]; linarith
    · simp only [Out.val.injEq] at h
      rw [← h]
      have : 0 < 0.5 * (xn + n / xn) := by linarith
      linarith

/-! ## Prefix sums -/

theorem fold_take (I : Nat) : ∀ (l : List Int) (k : Nat), ((l.zipIdx k).map fun p => if (p.2 : Int) < (k : Int) + I then p.1 else 0).foldr (· + ·) 0 = (l.take I).sum := by
  induction I with
  | zero =>
    intro l
    induction l with
    | nil => simp
    | cons a l ih =>
      intro k
      have := ih (k + 1)
      simp only [List.zipIdx_cons, List.map_cons, List.foldr_cons, List.take_zero, List.sum_nil] at *
      rw [if_neg (by simp)]
      have e : ((l.zipIdx (k + 1)).map fun p => if (p.2 : Int) < (k : Int) + (0 : Nat) then p.1 else 0) =
          ((l.zipIdx (k + 1)).map fun p => if (p.2 : Int) < ((k + 1 : Nat) : Int) + (0 : Nat) then p.1 else 0) := by
        apply List.map_congr_left
        intro p hp
        have := List.mem_zipIdx hp
        rw [if_neg (by push_cast; omega), if_neg (by push_cast; omega)]
      rw [e, this]; rfl
  | succ I ih =>
    intro l k
    cases l with
    | nil => simp
    | cons a l =>
      have := ih l (k + 1)
      simp only [List.zipIdx_cons, List.map_cons, List.foldr_cons, List.take_succ_cons, List.sum_cons]
      rw [if_pos (by push_cast; omega), ← this]
      congr 3
      funext p
      congr 1
      push_cast
      rw [show (k : Int) + (I + 1) = k + 1 + I by ring]

theorem fold_drop (I : Nat) : ∀ (l : List Int) (k : Nat), ((l.zipIdx k).map fun p => if (p.2 : Int) ≥ (k : Int) + I then p.1 else 1).foldr (· * ·) 1 = (l.drop I).prod := by
  induction I with
  | zero =>
    intro l
    induction l with
    | nil => simp
    | cons a l ih =>
      intro k
      have := ih (k + 1)
      simp only [List.zipIdx_cons, List.map_cons, List.foldr_cons, List.drop_zero, List.prod_cons] at *
      rw [if_pos (by simp), ← this]
      congr 2
      apply List.map_congr_left
      intro p hp
      have := List.mem_zipIdx hp
      rw [if_pos (by push_cast; omega), if_pos (by push_cast; omega)]
  | succ I ih =>
    intro l k
    cases l with
    | nil => simp
    | cons a l =>
      have := ih l (k + 1)
      simp only [List.zipIdx_cons, List.map_cons, List.foldr_cons, List.drop_succ_cons]
      rw [if_neg (by push_cast; omega), ← this, one_mul]
      congr 2
      funext p
      congr 1
      push_cast
      rw [show (k : Int) + (I + 1) = k + 1 + I by ring]

/-! ## Cubics -/

theorem u_facts : ∃ w : ℂ, (-1 + Real.sqrt 3 * Complex.I) / 2 = w ∧ (-1 - Real.sqrt 3 * Complex.I) / 2 = w * w ∧ w * w + w + 1 = 0 := by
  have h3 : ((Real.sqrt 3 : ℝ) : ℂ) * (Real.sqrt 3 : ℝ) = 3 := by
    rw [← Complex.ofReal_mul, Real.mul_self_sqrt (by norm_num)]; norm_num
  have hI := Complex.I_mul_I
  refine ⟨_, rfl, ?_, ?_⟩
  · linear_combination (-1 / 4 * Complex.I * Complex.I) * h3 - 3 / 4 * hI
  · linear_combination (1 / 4 * Complex.I * Complex.I) * h3 + 3 / 4 * hI

/-- The polynomial splits into the three factors. -/
theorem cardano_split {a b c d C D w : ℂ} (ha : a ≠ 0) (hw : w * w + w + 1 = 0) (hCD : C * D = b * b - 3 * a * c)
    (hsum : C * C * C + D * D * D = 2 * b * b * b - 9 * a * b * c + 27 * a * a * d) (X : ℂ) :
    a * X ^ 3 + b * X ^ 2 + c * X + d =
      a * (X - (b + C + D) / (-3 * a)) * (X - (b + w * C + w * w * D) / (-3 * a)) * (X - (b + w * w * C + w * D) / (-3 * a)) := by
  have hw3 : w * w * w = 1 := by linear_combination (w - 1) * hw
  have e : ∀ y : ℂ, X - y / (-3 * a) = (3 * a * X + y) / (3 * a) := by intro y; field_simp; ring
  rw [e, e, e]
  have key : 27 * a * a * (a * X ^ 3 + b * X ^ 2 + c * X + d) =
      (3 * a * X + (b + C + D)) * (3 * a * X + (b + w * C + w * w * D)) * (3 * a * X + (b + w * w * C + w * D)) := by
    have hw2 : w * w = -w - 1 := by linear_combination hw
    generalize hP : 3 * a * X + b = P
    have e2 : (3 * a * X + (b + C + D)) * (3 * a * X + (b + w * C + w * w * D)) * (3 * a * X + (b + w * w * C + w * D)) =
        P * P * P + C * C * C + D * D * D - 3 * P * (C * D) := by
      rw [← hP, hw2]
      have hq : w ^ 2 = -w - 1 := by rw [pow_two]; exact hw2
      ring_nf
      simp only [hq]
      ring
    rw [e2, hCD, ← hP]
    linear_combination (-1) * hsum
  field_simp
  linear_combination key

theorem cubic_real (a b c d x : ℝ) : (a : ℂ) * (x : ℂ) ^ 3 + b * (x : ℂ) ^ 2 + c * x + d = 0 ↔ a * x * x * x + b * x * x + c * x + d = 0 := by
  have : (a : ℂ) * (x : ℂ) ^ 3 + b * (x : ℂ) ^ 2 + c * x + d = ((a * x * x * x + b * x * x + c * x + d : ℝ) : ℂ) := by push_cast; ring
  rw [this, Complex.ofReal_eq_zero]

/-- `t` is the smallest positive real part of the nearly real members of a set, or -1. -/
def Best (tol : ℝ) (S : ℂ → Prop) (t : ℝ) : Prop :=
  ((∃ z : ℂ, S z ∧ |z.im| < tol ∧ 0 < z.re ∧ t = z.re) ∧ (∀ z : ℂ, S z → |z.im| < tol → 0 < z.re → t ≤ z.re)) ∨
    t = -1 ∧ ∀ z : ℂ, S z → |z.im| < tol → ¬ 0 < z.re

open Classical in
theorem Best.step {tol t : ℝ} {S : ℂ → Prop} (h : Best tol S t) (y : ℂ) :
    Best tol (fun z => S z ∨ z = y) (if |y.im| < tol ∧ y.re > 0 ∧ (y.re < t ∨ t < 0) then y.re else t) := by
  split_ifs with hc
  · obtain ⟨c1, c2, c3⟩ := hc
    refine Or.inl ⟨⟨y, Or.inr rfl, c1, c2, rfl⟩, ?_⟩
    rintro z (hz | rfl) z1 z2
    · rcases h with ⟨⟨w, _, _, w3, rfl⟩, hm⟩ | ⟨rfl, hm⟩
      · have := hm z hz z1 z2
        rcases c3 with c3 | c3 <;> linarith
      · exact absurd z2 (hm z hz z1)
    · exact le_rfl
  · rcases h with ⟨⟨w, w1, w2, w3, rfl⟩, hm⟩ | ⟨rfl, hm⟩
    · refine Or.inl ⟨⟨w, Or.inl w1, w2, w3, rfl⟩, ?_⟩
      rintro z (hz | rfl) z1 z2
      · exact hm z hz z1 z2
      · by_contra hlt
        exact hc ⟨z1, z2, Or.inl (not_le.1 hlt)⟩
    · refine Or.inr ⟨rfl, ?_⟩
      rintro z (hz | rfl) z1 z2
      · exact hm z hz z1 z2
      · exact hc ⟨z1, z2, Or.inr (by norm_num)⟩

end Verif.MathUtils
