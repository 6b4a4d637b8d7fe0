import Verif.Spec.Distance
import Verif.Proof.SmallMat
import Mathlib.Tactic.Linarith
import Mathlib.Tactic.Ring
import Mathlib.Tactic.FieldSimp
import Mathlib.Tactic.LinearCombination
import Mathlib.Tactic.IntervalCases

/-!
Helper lemmas: distances from a point to an edge and to a triangle.
-/
namespace Verif.Dist

open Verif.Mat (Store)

theorem dot_eq (n : Nat) (a b : Store ℝ) : Mat.dot n a b = ∑ i : Fin n, a i * b i := by
  unfold Mat.dot; exact Mat.forN_sum n fun i => a i * b i

theorem norm_eq (n : Nat) (a : Store ℝ) : Mat.l2NormSqr n a = ∑ i : Fin n, a i * a i := by
  unfold Mat.l2NormSqr; exact Mat.forN_sum n fun i => a i * a i

theorem norm_nonneg (n : Nat) (a : Store ℝ) : 0 ≤ Mat.l2NormSqr n a := by
  rw [norm_eq]; exact Finset.sum_nonneg fun i _ => mul_self_nonneg _

theorem dist2Pp_eq (n : Nat) (a b : Store ℝ) : dist2Pp n a b = distSq n a b := by
  unfold dist2Pp distSq; rw [norm_eq]
  exact Finset.sum_congr rfl fun i _ => by simp only [sub]; ring

/-! ### One variable -/

/-- x in [0, 1] where the derivative has the right sign. -/
def Opt (x g : ℝ) : Prop := 0 ≤ x ∧ x ≤ 1 ∧ (x = 0 ∨ g ≤ 0) ∧ (x = 1 ∨ 0 ≤ g)

theorem Opt.le {x g : ℝ} (h : Opt x g) {y : ℝ} (h0 : 0 ≤ y) (h1 : y ≤ 1) : 0 ≤ g * (y - x) := by
  obtain ⟨a, b, c, d⟩ := h
  rcases c with c | c <;> rcases d with d | d
  · subst c; linarith
  · subst c; simpa using mul_nonneg d h0
  · subst d; exact mul_nonneg_of_nonpos_of_nonpos c (by linarith)
  · have : g = 0 := le_antisymm c d
    simp [this]

/-- The distance from a point to the points of an edge. -/
theorem seg_poly (n : Nat) (p e0 e1 : Store ℝ) (r : ℝ) : distSq n p (fun i => (1 - r) * e0 i + r * e1 i)
    = distSq n p e0 - 2 * r * Mat.dot n (sub e1 e0) (sub p e0) + r ^ 2 * Mat.l2NormSqr n (sub e1 e0) := by
  unfold distSq; rw [dot_eq, norm_eq, Finset.mul_sum, Finset.mul_sum, ← Finset.sum_sub_distrib, ← Finset.sum_add_distrib]
  exact Finset.sum_congr rfl fun i _ => by simp only [sub]; ring

theorem seg_isDist (n : Nat) (p e0 e1 : Store ℝ) (r : ℝ) (h : Opt r (r * Mat.l2NormSqr n (sub e1 e0) - Mat.dot n (sub e1 e0) (sub p e0))) :
    IsDist n {p} (Segment e0 e1) (distSq n p fun i => (1 - r) * e0 i + r * e1 i) := by
  refine ⟨⟨p, rfl, _, ⟨r, h.1, h.2.1, rfl⟩, rfl⟩, ?_⟩
  rintro y ⟨a, ha, b, ⟨r', h0, h1, rfl⟩, rfl⟩
  rw [Set.mem_singleton_iff.1 ha]
  rw [seg_poly, seg_poly]
  have k := h.le h0 h1
  have := norm_nonneg n (sub e1 e0)
  nlinarith [mul_nonneg this (sq_nonneg (r' - r))]

theorem seg_foot (n : Nat) (p e0 e1 : Store ℝ) (h : Mat.l2NormSqr n (sub e1 e0) ≠ 0) :
    distSq n p (fun i => (1 - Mat.dot n (sub e1 e0) (sub p e0) / Mat.l2NormSqr n (sub e1 e0)) * e0 i
      + Mat.dot n (sub e1 e0) (sub p e0) / Mat.l2NormSqr n (sub e1 e0) * e1 i)
    = (distSq n p e0 * Mat.l2NormSqr n (sub e1 e0) - Mat.dot n (sub e1 e0) (sub p e0) ^ 2) / Mat.l2NormSqr n (sub e1 e0) := by
  rw [seg_poly]; field_simp; ring

theorem seg_ends (n : Nat) (p e0 e1 : Store ℝ) :
    (distSq n p fun i => (1 - 0) * e0 i + 0 * e1 i) = distSq n p e0 ∧ (distSq n p fun i => (1 - 1) * e0 i + 1 * e1 i) = distSq n p e1 := by
  constructor <;> · congr 1; funext i; ring

theorem dot2 (a b : Store ℝ) : Mat.dot 2 a b = a 0 * b 0 + a 1 * b 1 := by rw [dot_eq, Fin.sum_univ_two]; rfl

theorem dot3 (a b : Store ℝ) : Mat.dot 3 a b = a 0 * b 0 + a 1 * b 1 + a 2 * b 2 := by rw [dot_eq, Fin.sum_univ_three]; rfl

theorem norm2 (a : Store ℝ) : Mat.l2NormSqr 2 a = a 0 * a 0 + a 1 * a 1 := by rw [norm_eq, Fin.sum_univ_two]; rfl

theorem norm3 (a : Store ℝ) : Mat.l2NormSqr 3 a = a 0 * a 0 + a 1 * a 1 + a 2 * a 2 := by rw [norm_eq, Fin.sum_univ_three]; rfl

theorem distSq2 (a b : Store ℝ) : distSq 2 a b = (a 0 - b 0) ^ 2 + (a 1 - b 1) ^ 2 := by unfold distSq; rw [Fin.sum_univ_two]; rfl

theorem distSq3 (a b : Store ℝ) : distSq 3 a b = (a 0 - b 0) ^ 2 + (a 1 - b 1) ^ 2 + (a 2 - b 2) ^ 2 := by
  unfold distSq; rw [Fin.sum_univ_three]; rfl

theorem cross_0 (a b : Store ℝ) : Mat.cross3 a b 0 = a 1 * b 2 - a 2 * b 1 := rfl

theorem cross_1 (a b : Store ℝ) : Mat.cross3 a b 1 = a 2 * b 0 - a 0 * b 2 := rfl

theorem cross_2 (a b : Store ℝ) : Mat.cross3 a b 2 = a 0 * b 1 - a 1 * b 0 := rfl

theorem quot_ne {y : ℝ} (h : y ≠ 0) (x : ℝ) : quot x y = some (x / y) := if_neg h

/-- The formulas for the distance to a line. -/
theorem line2_eq (p e0 e1 : Store ℝ) (h : Mat.l2NormSqr 2 (sub e1 e0) ≠ 0) :
    line2 p e0 e1 = some ((distSq 2 p e0 * Mat.l2NormSqr 2 (sub e1 e0) - Mat.dot 2 (sub e1 e0) (sub p e0) ^ 2) / Mat.l2NormSqr 2 (sub e1 e0)) := by
  unfold line2; simp only []; rw [quot_ne h]; congr 2
  rw [distSq2, dot2, norm2]; simp only [sub]; ring

theorem line3_eq (p e0 e1 : Store ℝ) (h : Mat.l2NormSqr 3 (sub e1 e0) ≠ 0) :
    line3 p e0 e1 = some ((distSq 3 p e0 * Mat.l2NormSqr 3 (sub e1 e0) - Mat.dot 3 (sub e1 e0) (sub p e0) ^ 2) / Mat.l2NormSqr 3 (sub e1 e0)) := by
  unfold line3; rw [quot_ne h]; congr 2
  rw [distSq3, dot3, norm3, norm3, cross_0, cross_1, cross_2]; simp only [sub]; ring

theorem norm_pos {n : Nat} {a : Store ℝ} (h : Mat.l2NormSqr n a ≠ 0) : 0 < Mat.l2NormSqr n a := lt_of_le_of_ne (norm_nonneg _ _) (Ne.symm h)

theorem dist2PeUnclassified_isDist (big : ℝ) {n : Nat} (hn : n = 2 ∨ n = 3) (p e0 e1 : Store ℝ) (h : Mat.l2NormSqr n (sub e1 e0) ≠ 0) :
    ∃ d, dist2PeUnclassified big n p e0 e1 = some d ∧ IsDist n {p} (Segment e0 e1) d := by
  have hp := norm_pos h
  unfold dist2PeUnclassified peType; simp only []
  by_cases h0 : Mat.dot n (sub e1 e0) (sub p e0) / Mat.l2NormSqr n (sub e1 e0) < 0
  · rw [if_pos h0]
    refine ⟨_, rfl, ?_⟩
    have := seg_isDist n p e0 e1 0 ⟨le_refl _, by norm_num, Or.inl rfl, Or.inr (by rw [div_lt_iff₀ hp] at h0; linarith)⟩
    rw [(seg_ends n p e0 e1).1] at this
    rwa [dist2Pp_eq]
  rw [if_neg h0]
  by_cases h1 : Mat.dot n (sub e1 e0) (sub p e0) / Mat.l2NormSqr n (sub e1 e0) > 1
  · rw [if_pos h1]
    refine ⟨_, rfl, ?_⟩
    have := seg_isDist n p e0 e1 1 ⟨by norm_num, le_refl _, Or.inr (by rw [gt_iff_lt, lt_div_iff₀ hp] at h1; linarith), Or.inl rfl⟩
    rw [(seg_ends n p e0 e1).2] at this
    rwa [dist2Pp_eq]
  · rw [if_neg h1]
    have e : Mat.dot n (sub e1 e0) (sub p e0) / Mat.l2NormSqr n (sub e1 e0) * Mat.l2NormSqr n (sub e1 e0) - Mat.dot n (sub e1 e0) (sub p e0) = 0 := by
      field_simp; ring
    have := seg_isDist n p e0 e1 _ ⟨not_lt.1 h0, not_lt.1 h1, Or.inr e.le, Or.inr e.ge⟩
    rw [seg_foot n p e0 e1 h] at this
    rcases hn with rfl | rfl
    · exact ⟨_, by simp only [if_true]; exact line2_eq p e0 e1 h, this⟩
    · exact ⟨_, by simp only [if_true]; exact line3_eq p e0 e1 h, this⟩

/-! ### Triangles -/

section scalar
variable {a b c p q : ℝ}

/-- (s, t) is in the triangle and the derivatives have the right signs. -/
structure Kkt (a b c p q s t : ℝ) : Prop where
  s0 : 0 ≤ s
  t0 : 0 ≤ t
  st : s + t ≤ 1
  h0 : s * (a * s + b * t + p) + t * (b * s + c * t + q) ≤ 0
  h1 : s * (a * s + b * t + p) + t * (b * s + c * t + q) ≤ a * s + b * t + p
  h2 : s * (a * s + b * t + p) + t * (b * s + c * t + q) ≤ b * s + c * t + q

theorem Kkt.swap {s t : ℝ} (h : Kkt c b a q p t s) : Kkt a b c p q s t := by
  obtain ⟨h1, h2, h3, h4, h5, h6⟩ := h
  constructor <;> linarith

theorem kkt00 (hp : 0 ≤ p) (hq : 0 ≤ q) : Kkt a b c p q 0 0 := by constructor <;> simp [hp, hq]

theorem kkt10 (h : a + p ≤ 0) (h' : a + p ≤ b + q) : Kkt a b c p q 1 0 := by constructor <;> simp [h, h']

theorem kkt01 (h : c + q ≤ 0) (h' : c + q ≤ b + p) : Kkt a b c p q 0 1 := (kkt10 h h').swap

theorem kktS (ha : 0 < a) (h0 : p < 0) (h1 : -p < a) (h : b * p - a * q ≤ 0) : Kkt a b c p q (-p / a) 0 := by
  have e : a * (-p / a) + b * 0 + p = 0 := by field_simp; ring
  have f : 0 ≤ b * (-p / a) + c * 0 + q := by
    have : b * (-p / a) + c * 0 + q = (a * q - b * p) / a := by field_simp; ring
    rw [this]; exact div_nonneg (by linarith) ha.le
  refine ⟨div_nonneg (by linarith) ha.le, le_refl _, ?_, ?_, ?_, ?_⟩
  · rw [add_zero, div_le_one ha]; linarith
  all_goals rw [e]; linarith

theorem kktT (hc : 0 < c) (h0 : q < 0) (h1 : -q < c) (h : b * q - c * p ≤ 0) : Kkt a b c p q 0 (-q / c) := (kktS hc h0 h1 h).swap

theorem kktH (hn : 0 < c + q - b - p) (hd : c + q - b - p < a - (b + b) + c) (h : a * c - b * b ≤ (b * q - c * p) + (b * p - a * q)) :
    Kkt a b c p q ((c + q - b - p) / (a - (b + b) + c)) (1 - (c + q - b - p) / (a - (b + b) + c)) := by
  have hD : 0 < a - (b + b) + c := by linarith
  obtain ⟨s, hs⟩ : ∃ s, s = (c + q - b - p) / (a - (b + b) + c) := ⟨_, rfl⟩
  have e : s * (a - (b + b) + c) = c + q - b - p := by rw [hs]; exact div_mul_cancel₀ _ hD.ne'
  rw [← hs]
  have s0 : 0 < s := by rw [hs]; exact div_pos hn hD
  have s1 : s < 1 := by rw [hs, div_lt_one hD]; exact hd
  have g : a * s + b * (1 - s) + p = b * s + c * (1 - s) + q := by linear_combination e
  have g0 : (a * s + b * (1 - s) + p) * (a - (b + b) + c) ≤ 0 := by
    have : (a * s + b * (1 - s) + p) * (a - (b + b) + c) = a * c - b * b - ((b * q - c * p) + (b * p - a * q)) := by
      linear_combination (a - b) * e
    linarith
  have g1 : a * s + b * (1 - s) + p ≤ 0 := by
    by_contra hx; exact absurd g0 (not_le.2 (mul_pos (not_le.1 hx) hD))
  refine ⟨s0.le, by linarith, by linarith, ?_, ?_, ?_⟩
  all_goals rw [← g]; linarith

theorem kktI (hD : 0 < a * c - b * b) (h0 : 0 ≤ b * q - c * p) (h1 : 0 ≤ b * p - a * q) (h : (b * q - c * p) + (b * p - a * q) ≤ a * c - b * b) :
    Kkt a b c p q ((b * q - c * p) / (a * c - b * b)) ((b * p - a * q) / (a * c - b * b)) := by
  have e0 : a * ((b * q - c * p) / (a * c - b * b)) + b * ((b * p - a * q) / (a * c - b * b)) + p = 0 := by
    rw [mul_div_assoc', mul_div_assoc', ← add_div, div_add' _ _ _ hD.ne', div_eq_zero_iff]; left; ring
  have e1 : b * ((b * q - c * p) / (a * c - b * b)) + c * ((b * p - a * q) / (a * c - b * b)) + q = 0 := by
    rw [mul_div_assoc', mul_div_assoc', ← add_div, div_add' _ _ _ hD.ne', div_eq_zero_iff]; left; ring
  refine ⟨div_nonneg h0 hD.le, div_nonneg h1 hD.le, ?_, ?_, ?_, ?_⟩
  · rw [← add_div, div_le_one hD]; exact h
  all_goals rw [e0, e1]; simp

theorem scalar1 (ha : 0 < a) (hD : 0 < a * c - b * b) (hs : b * q - c * p ≤ 0) (ht : 0 ≤ b * p - a * q) (hq : 0 ≤ q) : 0 ≤ p := by
  -- a σ + b τ = - Δ p, b σ + c τ = - Δ q
  rcases le_or_gt b 0 with hb | hb
  · by_contra hp
    nlinarith [mul_nonneg_of_nonpos_of_nonpos hb (not_le.1 hp).le, mul_nonneg ha.le hq, mul_nonneg ht ha.le, mul_nonpos_of_nonpos_of_nonneg hb ht,
      mul_nonpos_of_nonneg_of_nonpos ha.le hs, mul_pos hD (neg_pos.2 (not_le.1 hp))]
  · by_contra hp
    have : b * p < 0 := mul_neg_of_pos_of_neg hb (not_le.1 hp)
    nlinarith [mul_nonneg ha.le hq]

theorem scalar2 (hc : 0 < c) (ha : 0 < a) (hD : 0 < a * c - b * b) (hs : b * q - c * p ≤ 0)
    (hst : (b * q - c * p) + (b * p - a * q) ≤ a * c - b * b) (h : c + q ≤ 0) : c + q ≤ b + p := by
  rcases le_or_gt b c with hb | hb
  · -- c (b + p - c - q) = (c - b) (-(c + q)) - σ + ...
    have : 0 ≤ c * (b + p - (c + q)) := by
      have e : c * (b + p - (c + q)) = (c - b) * -(c + q) + -(b * q - c * p) := by ring
      rw [e]; exact add_nonneg (mul_nonneg (by linarith) (by linarith)) (by linarith)
    have := nonneg_of_mul_nonneg_right this hc
    linarith
  · have hE : 0 < a - (b + b) + c := by nlinarith [sq_nonneg (a - b), sq_nonneg (c - b)]
    by_contra hx
    have : 0 < c + q - b - p := by linarith
    nlinarith [mul_pos (sub_pos.2 hb) this]

theorem scalar3 (hc : 0 < c) (ha : 0 < a) (hD : 0 < a * c - b * b) (ht : 0 ≤ b * p - a * q)
    (hst : a * c - b * b < (b * q - c * p) + (b * p - a * q)) (h : a + p ≤ b + q) : a + p ≤ 0 := by
  by_contra hx
  have hx := not_le.1 hx
  rcases le_or_gt b a with hb | hb
  · have e : (a - b) * (a + p) = -(b * p - a * q) - a * (b + q - (a + p)) := by ring
    have f : a * c - b * b - ((b * q - c * p) + (b * p - a * q)) = (a - b) * (b + q - (a + p)) + (a + p) * (a - (b + b) + c) := by ring
    have k : 0 ≤ a * (b + q - (a + p)) := mul_nonneg ha.le (by linarith)
    rcases hb.lt_or_eq with hb | rfl
    · nlinarith [mul_pos (sub_pos.2 hb) hx]
    · have : 0 < b * (c - b) := by linarith
      have : 0 < c - b := (mul_pos_iff_of_pos_left ha).1 this
      nlinarith [mul_pos hx this]
  · have hE : 0 < a - (b + b) + c := by nlinarith [sq_nonneg (a - b), sq_nonneg (c - b)]
    nlinarith [mul_pos (sub_pos.2 hb) hx]

end scalar

theorem ptParams_kkt {a b c p q : ℝ} (ha : 0 < a) (hc : 0 < c) (hD : 0 < a * c - b * b) : ∃ s t, ptParams a b c p q = some (s, t) ∧ Kkt a b c p q s t := by
  have hD' : 0 < c * a - b * b := by linarith
  unfold ptParams; simp only [max_eq_left hD.le]
  split_ifs
  all_goals first
    | (exfalso; linarith)
    | refine ⟨_, _, rfl, ?_⟩
  all_goals first
    | exact kktI hD (by linarith) (by linarith) (by linarith)
    | exact kktS ha (by linarith) (by linarith) (by linarith)
    | exact kktT hc (by linarith) (by linarith) (by linarith)
    | (have := kktH (a := a) (b := b) (c := c) (p := p) (q := q) (by linarith) (by linarith) (by linarith)
       convert this using 2 <;> ring1)
    | (have := (kktH (a := c) (b := b) (c := a) (p := q) (q := p) (by linarith) (by linarith) (by linarith)).swap
       convert this using 2 <;> ring1)
    | exact kkt10 (by linarith) (by linarith)
    | exact kkt01 (by linarith) (by linarith)
    | exact kkt00 (by linarith) (by linarith)
    | exact kkt00 (scalar1 (a := a) (b := b) (c := c) (p := p) (q := q) ha hD (by linarith) (by linarith) (by linarith)) (by linarith)
    | exact kkt00 (by linarith) (scalar1 (a := c) (b := b) (c := a) (p := q) (q := p) hc hD' (by linarith) (by linarith) (by linarith))
    | exact kkt10 (by linarith) (scalar2 (a := c) (b := b) (c := a) (p := q) (q := p) ha hc hD' (by linarith) (by linarith) (by linarith))
    | exact kkt01 (by linarith) (scalar2 (a := a) (b := b) (c := c) (p := p) (q := q) hc ha hD (by linarith) (by linarith) (by linarith))
    | exact kkt10 (scalar3 (a := a) (b := b) (c := c) (p := p) (q := q) hc ha hD (by linarith) (by linarith) (by linarith)) (by linarith)
    | exact kkt01 (scalar3 (a := c) (b := b) (c := a) (p := q) (q := p) ha hc hD' (by linarith) (by linarith) (by linarith)) (by linarith)

theorem ptCategory_params (a b c p q : ℝ) : (ptCategory a b c p q).map Prod.snd = ptParams a b c p q := by
  unfold ptCategory ptParams; simp only []
  split_ifs <;> rfl

/-- The position of the closest point for a category. -/
def Part (a b c p q : ℝ) (k : Nat) (s t : ℝ) : Prop :=
  (k = 0 ∧ s = 0 ∧ t = 0) ∨ (k = 1 ∧ s = 1 ∧ t = 0) ∨ (k = 2 ∧ s = 0 ∧ t = 1) ∨ (k = 3 ∧ t = 0 ∧ a * s + p = 0)
    ∨ (k = 4 ∧ s + t = 1 ∧ s * (a - (b + b) + c) = c + q - b - p) ∨ (k = 5 ∧ s = 0 ∧ c * t + q = 0)
    ∨ (k = 6 ∧ a * s + b * t + p = 0 ∧ b * s + c * t + q = 0)

theorem part3 {a b c p q : ℝ} (ha : 0 < a) : Part a b c p q 3 (-p / a) 0 := by
  refine Or.inr (Or.inr (Or.inr (Or.inl ⟨rfl, rfl, ?_⟩))); field_simp; ring

theorem part5 {a b c p q : ℝ} (hc : 0 < c) : Part a b c p q 5 0 (-q / c) := by
  refine Or.inr (Or.inr (Or.inr (Or.inr (Or.inr (Or.inl ⟨rfl, rfl, ?_⟩))))); field_simp; ring

theorem part4 {a b c p q s t : ℝ} (h : s + t = 1) (h' : s * (a - (b + b) + c) = c + q - b - p) : Part a b c p q 4 s t :=
  Or.inr (Or.inr (Or.inr (Or.inr (Or.inl ⟨rfl, h, h'⟩))))

theorem part6 {a b c p q : ℝ} (hD : 0 < a * c - b * b) : Part a b c p q 6 ((b * q - c * p) / (a * c - b * b)) ((b * p - a * q) / (a * c - b * b)) := by
  refine Or.inr (Or.inr (Or.inr (Or.inr (Or.inr (Or.inr ⟨rfl, ?_, ?_⟩)))))
  all_goals rw [mul_div_assoc', mul_div_assoc', ← add_div, div_add' _ _ _ hD.ne', div_eq_zero_iff]; left; ring

theorem ptCategory_part {a b c p q : ℝ} (ha : 0 < a) (hc : 0 < c) (hD : 0 < a * c - b * b) :
    ∃ k s t, ptCategory a b c p q = some (k, s, t) ∧ Part a b c p q k s t := by
  unfold ptCategory; simp only [max_eq_left hD.le]
  split_ifs
  all_goals first
    | (exfalso; linarith)
    | refine ⟨_, _, _, rfl, ?_⟩
  all_goals first
    | exact part6 hD
    | exact part3 ha
    | exact part5 hc
    | (have hE : a - (b + b) + c ≠ 0 := ne_of_gt (by linarith)
       refine part4 (by ring) ?_
       first
         | rw [div_mul_cancel₀ _ hE]; done
         | (rw [div_mul_cancel₀ _ hE]; ring)
         | (rw [sub_mul, div_mul_cancel₀ _ hE]; ring))
    | simp [Part]

end Verif.Dist
