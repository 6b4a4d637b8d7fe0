import Verif.Spec.ExactGeo
import Mathlib.Tactic.Ring
import Mathlib.Tactic.LinearCombination
import Mathlib.Tactic.Linarith
import Mathlib.Tactic.FieldSimp
import Mathlib.Tactic.Positivity

/-!
Helpers for the exact geometric predicates.
-/
namespace Verif.ExactGeo

theorem sgn_zero {r : ℚ} : sgn r = 0 ↔ r = 0 := by
  unfold sgn
  rcases lt_trichotomy r 0 with h | h | h
  · rw [if_neg (not_lt.2 h.le), if_pos h]; exact ⟨fun e => (by cases e), fun e => absurd e h.ne⟩
  · rw [h]; simp
  · rw [if_pos h]; exact ⟨fun e => (by cases e), fun e => absurd e h.ne'⟩

theorem sgn_pos {r : ℚ} (h : 0 < r) : sgn r = 1 := if_pos h
theorem sgn_neg {r : ℚ} (h : r < 0) : sgn r = -1 := by unfold sgn; rw [if_neg (not_lt.2 h.le), if_pos h]

theorem sgn_mul (a b : ℚ) : sgn (a * b) = sgn a * sgn b := by
  rcases lt_trichotomy a 0 with h | h | h <;> rcases lt_trichotomy b 0 with k | k | k
  · rw [sgn_pos (mul_pos_of_neg_of_neg h k), sgn_neg h, sgn_neg k]; rfl
  · rw [k, mul_zero, sgn_zero.2 rfl, mul_zero]
  · rw [sgn_neg (mul_neg_of_neg_of_pos h k), sgn_neg h, sgn_pos k]; rfl
  · rw [h, zero_mul, sgn_zero.2 rfl, zero_mul]
  · rw [h, zero_mul, sgn_zero.2 rfl, zero_mul]
  · rw [h, zero_mul, sgn_zero.2 rfl, zero_mul]
  · rw [sgn_neg (mul_neg_of_pos_of_neg h k), sgn_pos h, sgn_neg k]; rfl
  · rw [k, mul_zero, sgn_zero.2 rfl, mul_zero]
  · rw [sgn_pos (mul_pos h k), sgn_pos h, sgn_pos k]; rfl

theorem sgn_cases {r : ℚ} (h : r ≠ 0) : sgn r = 1 ∨ sgn r = -1 := by
  rcases lt_trichotomy r 0 with k | k | k
  · exact Or.inr (sgn_neg k)
  · exact absurd k h
  · exact Or.inl (sgn_pos k)

/-- The test is exact although it first compares with a tolerance. -/
theorem degenerate_cross (t1 t2 t3 : V3) : degenerate t1 t2 t3 = true ↔ cross (sub t1 t2) (sub t1 t3) = ⟨0, 0, 0⟩ := by
  have key : (List.range 3).all (fun j => orient2d (to2d t1 j) (to2d t2 j) (to2d t3 j) == 0) = true ↔ cross (sub t1 t2) (sub t1 t3) = ⟨0, 0, 0⟩ := by
    simp only [List.all_eq_true, List.mem_range, beq_iff_eq, V3.ext_iff]
    constructor
    · intro h
      have h0 := sgn_zero.1 (h 0 (by omega))
      have h1 := sgn_zero.1 (h 1 (by omega))
      have h2 := sgn_zero.1 (h 2 (by omega))
      simp only [to2d] at h0 h1 h2
      simp only [cross, sub]
      exact ⟨by linear_combination h0, by linear_combination h1, by linear_combination h2⟩
    · rintro ⟨h0, h1, h2⟩ j hj
      simp only [cross, sub] at h0 h1 h2
      have : j = 0 ∨ j = 1 ∨ j = 2 := by omega
      rcases this with rfl | rfl | rfl <;> refine sgn_zero.2 ?_ <;> simp only [to2d]
      · linear_combination h0
      · linear_combination h1
      · linear_combination h2
  unfold degenerate
  simp only
  split
  · rename_i hc
    refine ⟨fun e => (by cases e), fun e => ?_⟩
    rw [e] at hc
    norm_num [dot] at hc
  · exact key

/-- Parallel vectors. -/
theorem parallel {u w : V3} (h : cross u w = ⟨0, 0, 0⟩) (hu : u ≠ ⟨0, 0, 0⟩) :
    ∃ t, w = addMul ⟨0, 0, 0⟩ t u ∧ (u.x ≠ 0 → t = w.x / u.x) ∧ (u.y ≠ 0 → t = w.y / u.y) ∧ (u.z ≠ 0 → t = w.z / u.z) := by
  simp only [V3.ext_iff, cross] at h
  obtain ⟨h0, h1, h2⟩ := h
  have hw : ∃ t, w = addMul ⟨0, 0, 0⟩ t u := by
    by_cases hx : u.x = 0
    · by_cases hy : u.y = 0
      · by_cases hz : u.z = 0
        · exact absurd (V3.ext hx hy hz) hu
        · refine ⟨w.z / u.z, V3.ext ?_ ?_ ?_⟩ <;> simp only [addMul] <;> field_simp <;> linarith
      · refine ⟨w.y / u.y, V3.ext ?_ ?_ ?_⟩ <;> simp only [addMul] <;> field_simp <;> linarith
    · refine ⟨w.x / u.x, V3.ext ?_ ?_ ?_⟩ <;> simp only [addMul] <;> field_simp <;> linarith
  obtain ⟨t, ht⟩ := hw
  have hx : w.x = 0 + t * u.x := congrArg V3.x ht
  have hy : w.y = 0 + t * u.y := congrArg V3.y ht
  have hz : w.z = 0 + t * u.z := congrArg V3.z ht
  refine ⟨t, ht, fun e => ?_, fun e => ?_, fun e => ?_⟩
  · rw [hx]; field_simp; ring
  · rw [hy]; field_simp; ring
  · rw [hz]; field_simp; ring

theorem cross_comm_zero {u w : V3} : cross u w = ⟨0, 0, 0⟩ ↔ cross w u = ⟨0, 0, 0⟩ := by
  simp only [V3.ext_iff, cross]
  constructor <;> rintro ⟨a, b, c⟩ <;> exact ⟨by linarith, by linarith, by linarith⟩

/-- The determinant in barycentric coordinates: Cramer's rule for a point on the plane. -/
theorem bary (np pt t1 t2 t3 : V3) (h : det pt t1 t2 t3 = 0) :
    det pt np t2 t3 + det pt np t3 t1 + det pt np t1 t2 = det t1 np t2 t3 ∧
    det t1 np t2 t3 * pt.x = det pt np t2 t3 * t1.x + det pt np t3 t1 * t2.x + det pt np t1 t2 * t3.x ∧
    det t1 np t2 t3 * pt.y = det pt np t2 t3 * t1.y + det pt np t3 t1 * t2.y + det pt np t1 t2 * t3.y ∧
    det t1 np t2 t3 * pt.z = det pt np t2 t3 * t1.z + det pt np t3 t1 * t2.z + det pt np t1 t2 * t3.z := by
  simp only [det] at h ⊢
  refine ⟨?_, ?_, ?_, ?_⟩
  · linear_combination h
  · linear_combination (-np.x) * h
  · linear_combination (-np.y) * h
  · linear_combination (-np.z) * h

theorem bary_unique (np t1 t2 t3 : V3) {a b c : ℚ} (hs : a + b + c = 1) :
    det (mix a b c t1 t2 t3) np t2 t3 = a * det t1 np t2 t3 ∧ det (mix a b c t1 t2 t3) np t3 t1 = b * det t1 np t2 t3 ∧
    det (mix a b c t1 t2 t3) np t1 t2 = c * det t1 np t2 t3 ∧ det (mix a b c t1 t2 t3) t1 t2 t3 = 0 := by
  obtain rfl : a = 1 - b - c := by linarith
  simp only [det, mix]
  refine ⟨?_, ?_, ?_, ?_⟩ <;> ring

/-- Cramer's rule for the direction of a ray. -/
theorem cramer (pt pt1 t1 t2 t3 : V3) :
    det t3 pt t1 t2 * (pt1.x - pt.x) = det pt1 pt t2 t3 * (t1.x - pt.x) + det pt1 pt t3 t1 * (t2.x - pt.x) + det pt1 pt t1 t2 * (t3.x - pt.x) ∧
    det t3 pt t1 t2 * (pt1.y - pt.y) = det pt1 pt t2 t3 * (t1.y - pt.y) + det pt1 pt t3 t1 * (t2.y - pt.y) + det pt1 pt t1 t2 * (t3.y - pt.y) ∧
    det t3 pt t1 t2 * (pt1.z - pt.z) = det pt1 pt t2 t3 * (t1.z - pt.z) + det pt1 pt t3 t1 * (t2.z - pt.z) + det pt1 pt t1 t2 * (t3.z - pt.z) := by
  simp only [det]
  refine ⟨?_, ?_, ?_⟩ <;> ring

theorem det_scale (pt pt1 c d : V3) (s : ℚ) : det (addMul pt s (sub pt1 pt)) pt c d = s * det pt1 pt c d := by
  simp only [det, addMul, sub]; ring

/-- The three signs. -/
theorem three (a : ℚ) : (a < 0 ∧ sgn a = -1 ∧ ¬0 < a ∧ ¬0 ≤ a ∧ a ≠ 0) ∨ (a = 0 ∧ sgn a = 0 ∧ ¬0 < a ∧ 0 ≤ a) ∨ (0 < a ∧ sgn a = 1 ∧ 0 ≤ a ∧ a ≠ 0) := by
  rcases lt_trichotomy a 0 with h | h | h
  · exact Or.inl ⟨h, sgn_neg h, not_lt.2 h.le, not_le.2 h, h.ne⟩
  · exact Or.inr (Or.inl ⟨h, sgn_zero.2 h, by rw [h]; exact lt_irrefl 0, h.ge⟩)
  · exact Or.inr (Or.inr ⟨h, sgn_pos h, h.le, h.ne'⟩)

/-- The result for a point given by its coordinates in the triangle. -/
theorem pointTriangle_mix (np : V3 → V3 → V3 → V3) {t1 t2 t3 : V3} (hn : det (np t1 t2 t3) t1 t2 t3 ≠ 0) {a b c : ℚ} (hs : a + b + c = 1) (ho : Bool) :
    pointTriangle np (mix a b c t1 t2 t3) t1 t2 t3 ho =
      if ho = true ∧ a = 0 ∧ 0 < b ∧ 0 < c then 3 else if 0 < a ∧ 0 < b ∧ 0 < c then 1 else if 0 ≤ a ∧ 0 ≤ b ∧ 0 ≤ c then 2 else 0 := by
  obtain ⟨h1, h2, h3, h4⟩ := bary_unique (np t1 t2 t3) t1 t2 t3 hs
  have hD : det t1 (np t1 t2 t3) t2 t3 ≠ 0 := by
    have : det t1 (np t1 t2 t3) t2 t3 = -det (np t1 t2 t3) t1 t2 t3 := by simp only [det]; ring
    rw [this]; exact neg_ne_zero.2 hn
  simp only [pointTriangle, orient3d, h1, h2, h3, h4, sgn_mul, sgn_zero.2 (rfl : (0 : ℚ) = 0)]
  rcases sgn_cases hD with e | e <;> rw [e] <;>
  rcases three a with ⟨ka, sa, ka2, ka3, ka4⟩ | ⟨ka, sa, ka2, ka3⟩ | ⟨ka, sa, ka2, ka3⟩ <;>
  rcases three b with ⟨kb, sb, kb2, kb3, kb4⟩ | ⟨kb, sb, kb2, kb3⟩ | ⟨kb, sb, kb2, kb3⟩ <;>
  rcases three c with ⟨kc, sc, kc2, kc3, kc4⟩ | ⟨kc, sc, kc2, kc3⟩ | ⟨kc, sc, kc2, kc3⟩ <;>
  first
  | exact absurd hs (by linarith)
  | (rw [sa, sb, sc]; cases ho <;> simp [*])

/-- The result for a ray whose direction has the coordinates `a b c` along the directions to the corners. -/
theorem rayTriangleOff_coords {pt pt1 t1 t2 t3 : V3} (hV : det t3 pt t1 t2 ≠ 0) {a b c : ℚ} (h1 : det pt1 pt t2 t3 = a * det t3 pt t1 t2)
    (h2 : det pt1 pt t3 t1 = b * det t3 pt t1 t2) (h3 : det pt1 pt t1 t2 = c * det t3 pt t1 t2) (hn : ¬(a = 0 ∧ b = 0 ∧ c = 0)) (ho : Bool) :
    rayTriangleOff pt pt1 t1 t2 t3 ho =
      if 0 < a ∧ 0 < b ∧ 0 < c then 1 else if ho = true ∧ a = 0 ∧ 0 < b ∧ 0 < c then 3 else if 0 ≤ a ∧ 0 ≤ b ∧ 0 ≤ c then -1 else 0 := by
  simp only [rayTriangleOff, orient3d, h1, h2, h3, sgn_mul]
  rcases sgn_cases hV with e | e <;> rw [e] <;>
  rcases three a with ⟨ka, sa, ka2, ka3, ka4⟩ | ⟨ka, sa, ka2, ka3⟩ | ⟨ka, sa, ka2, ka3⟩ <;>
  rcases three b with ⟨kb, sb, kb2, kb3, kb4⟩ | ⟨kb, sb, kb2, kb3⟩ | ⟨kb, sb, kb2, kb3⟩ <;>
  rcases three c with ⟨kc, sc, kc2, kc3, kc4⟩ | ⟨kc, sc, kc2, kc3⟩ | ⟨kc, sc, kc2, kc3⟩ <;>
  first
  | (exfalso; exact hn (And.intro ka (And.intro kb kc)); done)
  | (clear hn h1 h2 h3 hV; rw [sa, sb, sc]; cases ho <;> simp [*])

/-- The coordinates of a point of the ray in the triangle are those of the direction, scaled. -/
theorem hit_coords {pt pt1 t1 t2 t3 : V3} {s a b c : ℚ} (hs : a + b + c = 1) (h : addMul pt s (sub pt1 pt) = mix a b c t1 t2 t3) :
    s * det pt1 pt t2 t3 = a * det t3 pt t1 t2 ∧ s * det pt1 pt t3 t1 = b * det t3 pt t1 t2 ∧ s * det pt1 pt t1 t2 = c * det t3 pt t1 t2 := by
  obtain ⟨h1, h2, h3, _⟩ := bary_unique pt t1 t2 t3 hs
  have hV : det t1 pt t2 t3 = det t3 pt t1 t2 := by simp only [det]; ring
  rw [← det_scale pt pt1 t2 t3 s, ← det_scale pt pt1 t3 t1 s, ← det_scale pt pt1 t1 t2 s, h, h1, h2, h3, hV]
  exact ⟨rfl, rfl, rfl⟩

/-- Where the direction has coordinates that are not negative, the ray meets the triangle. -/
theorem hit_make {pt pt1 t1 t2 t3 : V3} (hV : det t3 pt t1 t2 ≠ 0) {a b c : ℚ} (h1 : det pt1 pt t2 t3 = a * det t3 pt t1 t2)
    (h2 : det pt1 pt t3 t1 = b * det t3 pt t1 t2) (h3 : det pt1 pt t1 t2 = c * det t3 pt t1 t2) (hS : 0 < a + b + c) :
    addMul pt (1 / (a + b + c)) (sub pt1 pt) = mix (a / (a + b + c)) (b / (a + b + c)) (c / (a + b + c)) t1 t2 t3 := by
  obtain ⟨c1, c2, c3⟩ := cramer pt pt1 t1 t2 t3
  rw [h1, h2, h3] at c1 c2 c3
  have e1 : pt1.x - pt.x = a * (t1.x - pt.x) + b * (t2.x - pt.x) + c * (t3.x - pt.x) := mul_left_cancel₀ hV (by linear_combination c1)
  have e2 : pt1.y - pt.y = a * (t1.y - pt.y) + b * (t2.y - pt.y) + c * (t3.y - pt.y) := mul_left_cancel₀ hV (by linear_combination c2)
  have e3 : pt1.z - pt.z = a * (t1.z - pt.z) + b * (t2.z - pt.z) + c * (t3.z - pt.z) := mul_left_cancel₀ hV (by linear_combination c3)
  have hne := hS.ne'
  refine V3.ext ?_ ?_ ?_ <;> simp only [addMul, sub, mix] <;> [rw [e1]; rw [e2]; rw [e3]] <;> field_simp <;> ring

/-- The coordinates exist. -/
theorem coords {pt pt1 t1 t2 t3 : V3} (hV : det t3 pt t1 t2 ≠ 0) (hd : pt1 ≠ pt) :
    ∃ a b c : ℚ, det pt1 pt t2 t3 = a * det t3 pt t1 t2 ∧ det pt1 pt t3 t1 = b * det t3 pt t1 t2 ∧ det pt1 pt t1 t2 = c * det t3 pt t1 t2 ∧
      ¬(a = 0 ∧ b = 0 ∧ c = 0) := by
  refine ⟨det pt1 pt t2 t3 / det t3 pt t1 t2, det pt1 pt t3 t1 / det t3 pt t1 t2, det pt1 pt t1 t2 / det t3 pt t1 t2, by field_simp, by field_simp, by field_simp, ?_⟩
  rintro ⟨ha, hb, hc⟩
  have ha := (div_eq_zero_iff.1 ha).resolve_right hV
  have hb := (div_eq_zero_iff.1 hb).resolve_right hV
  have hc := (div_eq_zero_iff.1 hc).resolve_right hV
  obtain ⟨c1, c2, c3⟩ := cramer pt pt1 t1 t2 t3
  rw [ha, hb, hc] at c1 c2 c3
  refine hd (V3.ext ?_ ?_ ?_)
  · exact sub_eq_zero.1 (mul_left_cancel₀ hV (by rw [c1]; ring))
  · exact sub_eq_zero.1 (mul_left_cancel₀ hV (by rw [c2]; ring))
  · exact sub_eq_zero.1 (mul_left_cancel₀ hV (by rw [c3]; ring))

theorem funcG_mix (v0 v1 v2 v3 : V3) {a b c d : ℚ} (hs : a + b + c + d = 1) :
    funcG (mix4 a b c d v0 v1 v2 v3) v0 v1 v2 = d * funcG v3 v0 v1 v2 ∧ funcG (mix4 a b c d v0 v1 v2 v3) v0 v3 v2 = -(b * funcG v3 v0 v1 v2) ∧
    funcG (mix4 a b c d v0 v1 v2 v3) v1 v3 v2 = a * funcG v3 v0 v1 v2 ∧ funcG (mix4 a b c d v0 v1 v2 v3) v0 v1 v3 = -(c * funcG v3 v0 v1 v2) := by
  obtain rfl : a = 1 - b - c - d := by linarith
  simp only [funcG, mix4, dot, cross, sub]
  refine ⟨?_, ?_, ?_, ?_⟩ <;> ring

theorem coords4 (x v0 v1 v2 v3 : V3) (hW : funcG v3 v0 v1 v2 ≠ 0) : ∃ a b c d : ℚ, a + b + c + d = 1 ∧ x = mix4 a b c d v0 v1 v2 v3 := by
  refine ⟨funcG x v1 v3 v2 / funcG v3 v0 v1 v2, -funcG x v0 v3 v2 / funcG v3 v0 v1 v2, -funcG x v0 v1 v3 / funcG v3 v0 v1 v2, funcG x v0 v1 v2 / funcG v3 v0 v1 v2,
    ?_, V3.ext ?_ ?_ ?_⟩
  · rw [← add_div, ← add_div, ← add_div, div_eq_one_iff_eq hW]
    simp only [funcG, dot, cross, sub]; ring
  all_goals
    simp only [mix4]
    rw [div_mul_eq_mul_div, div_mul_eq_mul_div, div_mul_eq_mul_div, div_mul_eq_mul_div, ← add_div, ← add_div, ← add_div, eq_div_iff hW]
    simp only [funcG, dot, cross, sub]; ring

theorem phi_mix (v0 v1 v2 v3 : V3) {a b c d : ℚ} (hs : a + b + c + d = 1) :
    phi (mix4 a b c d v0 v1 v2 v3) v0 v1 v2 v3 = (a * c - b * d) * funcG v3 v0 v1 v2 ^ 2 := by
  obtain ⟨h1, h2, h3, h4⟩ := funcG_mix v0 v1 v2 v3 hs
  rw [phi, h1, h2, h3, h4]; ring

theorem funcG_det (v0 v1 v2 v3 : V3) : funcG v3 v0 v1 v2 = -det v0 v1 v2 v3 := by
  simp only [funcG, det, dot, cross, sub]; ring

theorem insideTet_mix (v0 v1 v2 v3 : V3) (hV : det v0 v1 v2 v3 ≠ 0) {a b c d : ℚ} (hs : a + b + c + d = 1) :
    insideTet v0 v1 v2 v3 (mix4 a b c d v0 v1 v2 v3) = true ↔ 0 < a ∧ 0 < b ∧ 0 < c ∧ 0 < d := by
  have e1 : det (mix4 a b c d v0 v1 v2 v3) v1 v2 v0 = d * -det v0 v1 v2 v3 := by
    obtain rfl : a = 1 - b - c - d := by linarith
    simp only [det, mix4]; ring
  have e2 : det (mix4 a b c d v0 v1 v2 v3) v3 v0 v2 = b * -det v0 v1 v2 v3 := by
    obtain rfl : a = 1 - b - c - d := by linarith
    simp only [det, mix4]; ring
  have e3 : det (mix4 a b c d v0 v1 v2 v3) v0 v3 v1 = c * -det v0 v1 v2 v3 := by
    obtain rfl : a = 1 - b - c - d := by linarith
    simp only [det, mix4]; ring
  have e4 : det (mix4 a b c d v0 v1 v2 v3) v2 v1 v3 = a * -det v0 v1 v2 v3 := by
    obtain rfl : a = 1 - b - c - d := by linarith
    simp only [det, mix4]; ring
  have f1 : det (mix4 a b c d v0 v1 v2 v3) v1 v0 v2 = d * det v0 v1 v2 v3 := by
    obtain rfl : a = 1 - b - c - d := by linarith
    simp only [det, mix4]; ring
  have f2 : det (mix4 a b c d v0 v1 v2 v3) v3 v2 v0 = b * det v0 v1 v2 v3 := by
    obtain rfl : a = 1 - b - c - d := by linarith
    simp only [det, mix4]; ring
  have f3 : det (mix4 a b c d v0 v1 v2 v3) v0 v1 v3 = c * det v0 v1 v2 v3 := by
    obtain rfl : a = 1 - b - c - d := by linarith
    simp only [det, mix4]; ring
  have f4 : det (mix4 a b c d v0 v1 v2 v3) v2 v3 v1 = a * det v0 v1 v2 v3 := by
    obtain rfl : a = 1 - b - c - d := by linarith
    simp only [det, mix4]; ring
  have key : ∀ w : ℚ, ¬(sgn w * -1 ≥ 0) ↔ 0 < w := by
    intro w
    rcases three w with ⟨k, s, k2, _, _⟩ | ⟨k, s, k2, _⟩ | ⟨k, s, _⟩ <;> rw [s] <;> simp [*]
  rcases lt_or_gt_of_ne hV with h | h
  · have ho : ¬(orient3d v0 v1 v2 v3 ≥ 0) := by rw [orient3d, sgn_neg h]; decide
    rw [insideTet, facets, if_neg ho]
    simp only [List.all_cons, List.all_nil, orient3d, f1, f2, f3, f4, sgn_mul, sgn_neg h, Bool.and_true, Bool.and_eq_true,
      Bool.not_eq_true', decide_eq_false_iff_not, key]
    exact ⟨fun ⟨p, q, r, s⟩ => ⟨s, q, r, p⟩, fun ⟨p, q, r, s⟩ => ⟨s, q, r, p⟩⟩
  · have ho : orient3d v0 v1 v2 v3 ≥ 0 := by rw [orient3d, sgn_pos h]; decide
    rw [insideTet, facets, if_pos ho]
    simp only [List.all_cons, List.all_nil, orient3d, e1, e2, e3, e4, sgn_mul, sgn_neg (neg_lt_zero.2 h), Bool.and_true,
      Bool.and_eq_true, Bool.not_eq_true', decide_eq_false_iff_not, key]
    exact ⟨fun ⟨p, q, r, s⟩ => ⟨s, q, r, p⟩, fun ⟨p, q, r, s⟩ => ⟨s, q, r, p⟩⟩

/-- A point on the plane of a triangle has coordinates. -/
theorem mix_exists {n pt t1 t2 t3 : V3} (hD : det t1 n t2 t3 ≠ 0) (hp : det pt t1 t2 t3 = 0) : ∃ a b c : ℚ, a + b + c = 1 ∧ pt = mix a b c t1 t2 t3 := by
  obtain ⟨b0, b1, b2, b3⟩ := bary n pt t1 t2 t3 hp
  refine ⟨det pt n t2 t3 / det t1 n t2 t3, det pt n t3 t1 / det t1 n t2 t3, det pt n t1 t2 / det t1 n t2 t3, ?_, V3.ext ?_ ?_ ?_⟩
  · rw [← add_div, ← add_div, div_eq_one_iff_eq hD]; exact b0
  all_goals
    simp only [mix]
    rw [div_mul_eq_mul_div, div_mul_eq_mul_div, div_mul_eq_mul_div, ← add_div, ← add_div, eq_div_iff hD]
    linarith

/-- The coordinates are unique. -/
theorem mix_unique {n t1 t2 t3 : V3} (hD : det t1 n t2 t3 ≠ 0) {a b c a' b' c' : ℚ} (hs : a + b + c = 1) (hs' : a' + b' + c' = 1)
    (e : mix a b c t1 t2 t3 = mix a' b' c' t1 t2 t3) : a = a' ∧ b = b' ∧ c = c' := by
  obtain ⟨p1, p2, p3, _⟩ := bary_unique n t1 t2 t3 hs
  obtain ⟨q1, q2, q3, _⟩ := bary_unique n t1 t2 t3 hs'
  rw [e] at p1 p2 p3
  exact ⟨mul_right_cancel₀ hD (p1.symm.trans q1), mul_right_cancel₀ hD (p2.symm.trans q2), mul_right_cancel₀ hD (p3.symm.trans q3)⟩

theorem pointOnRay_range (s0 e0 d pt : V3) : pointOnRay s0 e0 d pt = 0 ∨ pointOnRay s0 e0 d pt = 1 ∨ pointOnRay s0 e0 d pt = 2 := by
  unfold pointOnRay
  repeat' split
  all_goals simp

theorem coplanar {s0 d s1 e1 : V3} {r : ℚ} (h : OnSegment (addMul s0 r d) s1 e1) : det s0 (addMul s0 1 d) s1 e1 = 0 := by
  obtain ⟨t, _, _, e⟩ := h
  simp only [V3.ext_iff, addMul, sub] at e
  obtain ⟨ex, ey, ez⟩ := e
  obtain ⟨x, y, z⟩ := s0
  simp only at ex ey ez
  obtain rfl : x = s1.x + t * (e1.x - s1.x) - r * d.x := by linarith
  obtain rfl : y = s1.y + t * (e1.y - s1.y) - r * d.y := by linarith
  obtain rfl : z = s1.z + t * (e1.z - s1.z) - r * d.z := by linarith
  simp only [det, addMul]; ring

theorem addMul_zero (a d : V3) : addMul a 0 d = a := by refine V3.ext ?_ ?_ ?_ <;> simp only [addMul] <;> ring

/-- The points of the line of a ray on a segment whose first end is not on the line. -/
theorem segment_coords {n s0 d s1 e1 : V3} (hD : det s1 n s0 (addMul s0 1 d) ≠ 0) {x b y : ℚ} (hs : x + b + y = 1)
    (he : e1 = mix x b y s1 s0 (addMul s0 1 d)) (r : ℚ) :
    OnSegment (addMul s0 r d) s1 e1 ↔ ∃ t : ℚ, 0 ≤ t ∧ t ≤ 1 ∧ 1 - t + t * x = 0 ∧ t * y = r := by
  have e1' : addMul s0 r d = mix 0 (1 - r) r s1 s0 (addMul s0 1 d) := by refine V3.ext ?_ ?_ ?_ <;> simp only [mix, addMul] <;> ring
  have e2 : ∀ t, addMul s1 t (sub e1 s1) = mix (1 - t + t * x) (t * b) (t * y) s1 s0 (addMul s0 1 d) := by
    intro t; rw [he]; refine V3.ext ?_ ?_ ?_ <;> simp only [mix, addMul, sub] <;> ring
  constructor
  · rintro ⟨t, h0, h1, e⟩
    rw [e1', e2] at e
    obtain ⟨k1, k2, k3⟩ := mix_unique hD (by ring) (by linear_combination t * hs) e
    exact ⟨t, h0, h1, k1.symm, k3.symm⟩
  · rintro ⟨t, h0, h1, k1, k2⟩
    refine ⟨t, h0, h1, ?_⟩
    rw [e1', e2, k1, k2]
    have : t * b = 1 - r := by linear_combination t * hs - k1 - k2
    rw [this]

end Verif.ExactGeo
