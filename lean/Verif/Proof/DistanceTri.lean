import Verif.Proof.Distance

/-!
Helper lemmas: the distance from a point to a triangle, the classification of the closest point.
-/
namespace Verif.Dist

open Verif.Mat (Store)

theorem norm_dot (n : Nat) (a : Store ℝ) : Mat.dot n a a = Mat.l2NormSqr n a := by rw [dot_eq, norm_eq]

theorem dot_comm (n : Nat) (a b : Store ℝ) : Mat.dot n a b = Mat.dot n b a := by
  rw [dot_eq, dot_eq]; exact Finset.sum_congr rfl fun i _ => mul_comm _ _

theorem hit_distSq (n : Nat) (p t0 t1 t2 : Store ℝ) (s t : ℝ) :
    hit n p t0 t1 t2 s t = distSq n p fun i => (1 - s - t) * t0 i + s * t1 i + t * t2 i := by
  unfold hit distSq; rw [norm_eq]
  exact Finset.sum_congr rfl fun i _ => by simp only [sub]; ring

theorem hit_poly (n : Nat) (p t0 t1 t2 : Store ℝ) (s t : ℝ) : hit n p t0 t1 t2 s t
    = distSq n p t0 + 2 * s * Mat.dot n (sub t0 p) (sub t1 t0) + 2 * t * Mat.dot n (sub t0 p) (sub t2 t0)
      + s ^ 2 * Mat.dot n (sub t1 t0) (sub t1 t0) + 2 * (s * t) * Mat.dot n (sub t1 t0) (sub t2 t0) + t ^ 2 * Mat.dot n (sub t2 t0) (sub t2 t0) := by
  unfold hit distSq; simp only [norm_eq, dot_eq, Finset.mul_sum]
  rw [← Finset.sum_add_distrib, ← Finset.sum_add_distrib, ← Finset.sum_add_distrib, ← Finset.sum_add_distrib, ← Finset.sum_add_distrib]
  exact Finset.sum_congr rfl fun i _ => by simp only [sub]; ring

theorem quad_nonneg (n : Nat) (a b : Store ℝ) (x y : ℝ) : 0 ≤ x ^ 2 * Mat.dot n a a + 2 * (x * y) * Mat.dot n a b + y ^ 2 * Mat.dot n b b := by
  have : x ^ 2 * Mat.dot n a a + 2 * (x * y) * Mat.dot n a b + y ^ 2 * Mat.dot n b b = ∑ i : Fin n, (x * a i + y * b i) ^ 2 := by
    simp only [dot_eq, Finset.mul_sum]
    rw [← Finset.sum_add_distrib, ← Finset.sum_add_distrib]
    exact Finset.sum_congr rfl fun i _ => by ring
  rw [this]; exact Finset.sum_nonneg fun i _ => sq_nonneg _

/-- a b - c² is not negative. -/
theorem gram_nonneg (n : Nat) (a b : Store ℝ) : 0 ≤ Mat.dot n a a * Mat.dot n b b - Mat.dot n a b * Mat.dot n a b := by
  have h := quad_nonneg n a b (Mat.dot n a b) (-Mat.dot n a a)
  have ha : 0 ≤ Mat.dot n a a := by rw [norm_dot]; exact norm_nonneg n a
  rcases ha.eq_or_lt with h0 | h0
  · rw [← h0] at h ⊢
    have k := fun y => quad_nonneg n a b 1 y
    rw [← h0] at k
    by_contra hx
    have hb : Mat.dot n a b ≠ 0 := by intro e; rw [e] at hx; simp at hx
    have hB : 0 ≤ Mat.dot n b b := by rw [norm_dot]; exact norm_nonneg n b
    have := quad_nonneg n a b (-(Mat.dot n b b + 1) * Mat.dot n a b) 1
    rw [← h0] at this
    nlinarith [mul_pos (sq_pos_of_ne_zero hb) (by linarith : 0 < Mat.dot n b b + 1), sq_nonneg (Mat.dot n a b), sq_pos_of_ne_zero hb,
      quad_nonneg n a b (-(Mat.dot n b b + 1)) (Mat.dot n a b)]
  · nlinarith

/-- The scalars of a triangle. -/
structure Tri (n : Nat) (t0 t1 t2 : Store ℝ) : Prop where
  pos : 0 < Mat.dot n (sub t1 t0) (sub t1 t0) * Mat.dot n (sub t2 t0) (sub t2 t0) - Mat.dot n (sub t1 t0) (sub t2 t0) * Mat.dot n (sub t1 t0) (sub t2 t0)

theorem Tri.p0 {n : Nat} {t0 t1 t2 : Store ℝ} (h : Tri n t0 t1 t2) : 0 < Mat.dot n (sub t1 t0) (sub t1 t0) := by
  have := h.pos
  have ha : 0 ≤ Mat.dot n (sub t1 t0) (sub t1 t0) := by rw [norm_dot]; exact norm_nonneg n _
  rcases ha.eq_or_lt with h0 | h0
  · rw [← h0] at this; nlinarith [mul_self_nonneg (Mat.dot n (sub t1 t0) (sub t2 t0))]
  · exact h0

theorem Tri.p1 {n : Nat} {t0 t1 t2 : Store ℝ} (h : Tri n t0 t1 t2) : 0 < Mat.dot n (sub t2 t0) (sub t2 t0) := by
  have := h.pos
  have ha : 0 ≤ Mat.dot n (sub t2 t0) (sub t2 t0) := by rw [norm_dot]; exact norm_nonneg n _
  rcases ha.eq_or_lt with h0 | h0
  · rw [← h0] at this; nlinarith [mul_self_nonneg (Mat.dot n (sub t1 t0) (sub t2 t0))]
  · exact h0

/-- The closest point of the triangle for a solution. -/
theorem kkt_le {n : Nat} {p t0 t1 t2 : Store ℝ} {s t : ℝ} (h : Kkt (Mat.dot n (sub t1 t0) (sub t1 t0)) (Mat.dot n (sub t1 t0) (sub t2 t0))
    (Mat.dot n (sub t2 t0) (sub t2 t0)) (Mat.dot n (sub t0 p) (sub t1 t0)) (Mat.dot n (sub t0 p) (sub t2 t0)) s t) {x : Store ℝ}
    (hx : x ∈ Triangle t0 t1 t2) : hit n p t0 t1 t2 s t ≤ distSq n p x := by
  obtain ⟨α, β, γ, h0, h1, h2, hs, rfl⟩ := hx
  obtain rfl : α = 1 - β - γ := by linarith
  rw [← hit_distSq, hit_poly, hit_poly]
  have q := quad_nonneg n (sub t1 t0) (sub t2 t0) (β - s) (γ - t)
  obtain ⟨_, _, _, g0, g1, g2⟩ := h
  generalize Mat.dot n (sub t1 t0) (sub t1 t0) = a at *
  generalize Mat.dot n (sub t1 t0) (sub t2 t0) = b at *
  generalize Mat.dot n (sub t2 t0) (sub t2 t0) = c at *
  generalize Mat.dot n (sub t0 p) (sub t1 t0) = P at *
  generalize Mat.dot n (sub t0 p) (sub t2 t0) = Q at *
  have := mul_le_mul_of_nonneg_left g0 h0
  have := mul_le_mul_of_nonneg_left g1 h1
  have := mul_le_mul_of_nonneg_left g2 h2
  nlinarith

theorem kkt_isDist {n : Nat} {p t0 t1 t2 : Store ℝ} {s t : ℝ} (h : Kkt (Mat.dot n (sub t1 t0) (sub t1 t0)) (Mat.dot n (sub t1 t0) (sub t2 t0))
    (Mat.dot n (sub t2 t0) (sub t2 t0)) (Mat.dot n (sub t0 p) (sub t1 t0)) (Mat.dot n (sub t0 p) (sub t2 t0)) s t) :
    IsDist n {p} (Triangle t0 t1 t2) (hit n p t0 t1 t2 s t) := by
  refine ⟨⟨p, rfl, _, ⟨1 - s - t, s, t, by linarith [h.st], h.s0, h.t0, by ring, rfl⟩, hit_distSq _ _ _ _ _ _ _⟩, ?_⟩
  rintro y ⟨a, ha, b, hb, rfl⟩
  rw [Set.mem_singleton_iff.1 ha]
  exact kkt_le h hb

theorem tri_vertex (t0 t1 t2 : Store ℝ) : t0 ∈ Triangle t0 t1 t2 ∧ t1 ∈ Triangle t0 t1 t2 ∧ t2 ∈ Triangle t0 t1 t2 := by
  refine ⟨⟨1, 0, 0, ?_⟩, ⟨0, 1, 0, ?_⟩, ⟨0, 0, 1, ?_⟩⟩ <;> refine ⟨by norm_num, by norm_num, by norm_num, by norm_num, ?_⟩ <;> funext i <;> ring

theorem part_sub (t0 t1 t2 : Store ℝ) (k : Nat) : ptPart t0 t1 t2 k ⊆ Triangle t0 t1 t2 := by
  obtain ⟨v0, v1, v2⟩ := tri_vertex t0 t1 t2
  intro x hx
  match k, hx with
  | 0, hx => rw [Set.mem_singleton_iff.1 hx]; exact v0
  | 1, hx => rw [Set.mem_singleton_iff.1 hx]; exact v1
  | 2, hx => rw [Set.mem_singleton_iff.1 hx]; exact v2
  | 3, ⟨r, h0, h1, e⟩ => exact ⟨1 - r, r, 0, by linarith, h0, le_refl _, by ring, by rw [e]; funext i; ring⟩
  | 4, ⟨r, h0, h1, e⟩ => exact ⟨0, 1 - r, r, le_refl _, by linarith, h0, by ring, by rw [e]; funext i; ring⟩
  | 5, ⟨r, h0, h1, e⟩ => exact ⟨r, 0, 1 - r, h0, le_refl _, by linarith, by ring, by rw [e]; funext i; ring⟩
  | k + 6, hx => exact hx

/-- The closest point lies in the part of the category. -/
theorem part_mem {a b c P Q : ℝ} {k : Nat} {s t : ℝ} (hk : Kkt a b c P Q s t) (hp : Part a b c P Q k s t) (t0 t1 t2 : Store ℝ) :
    (fun i => (1 - s - t) * t0 i + s * t1 i + t * t2 i) ∈ ptPart t0 t1 t2 k := by
  rcases hp with ⟨rfl, rfl, rfl⟩ | ⟨rfl, rfl, rfl⟩ | ⟨rfl, rfl, rfl⟩ | ⟨rfl, rfl, _⟩ | ⟨rfl, h, _⟩ | ⟨rfl, rfl, _⟩ | ⟨rfl, _⟩
  · exact Set.mem_singleton_iff.2 (by funext i; ring)
  · exact Set.mem_singleton_iff.2 (by funext i; ring)
  · exact Set.mem_singleton_iff.2 (by funext i; ring)
  · exact ⟨s, hk.s0, by linarith [hk.st], by funext i; ring⟩
  · obtain rfl : t = 1 - s := by linarith
    exact ⟨1 - s, hk.t0, by linarith [hk.s0], by funext i; ring⟩
  · exact ⟨1 - t, by linarith [hk.st], by linarith [hk.t0], by funext i; ring⟩
  · exact ⟨1 - s - t, s, t, by linarith [hk.st], hk.s0, hk.t0, by ring, rfl⟩

theorem part_isDist {n : Nat} {p t0 t1 t2 : Store ℝ} {k : Nat} {s t : ℝ} (h : Kkt (Mat.dot n (sub t1 t0) (sub t1 t0)) (Mat.dot n (sub t1 t0) (sub t2 t0))
    (Mat.dot n (sub t2 t0) (sub t2 t0)) (Mat.dot n (sub t0 p) (sub t1 t0)) (Mat.dot n (sub t0 p) (sub t2 t0)) s t)
    (hp : Part (Mat.dot n (sub t1 t0) (sub t1 t0)) (Mat.dot n (sub t1 t0) (sub t2 t0))
    (Mat.dot n (sub t2 t0) (sub t2 t0)) (Mat.dot n (sub t0 p) (sub t1 t0)) (Mat.dot n (sub t0 p) (sub t2 t0)) k s t) :
    IsDist n {p} (ptPart t0 t1 t2 k) (hit n p t0 t1 t2 s t) := by
  refine ⟨⟨p, rfl, _, part_mem h hp t0 t1 t2, hit_distSq _ _ _ _ _ _ _⟩, ?_⟩
  rintro y ⟨a, ha, b, hb, rfl⟩
  rw [Set.mem_singleton_iff.1 ha]
  exact kkt_le h (part_sub t0 t1 t2 k hb)

/-! ### Three dimensions -/

theorem cross_norm (a b : Store ℝ) : Mat.l2NormSqr 3 (Mat.cross3 a b) = Mat.dot 3 a a * Mat.dot 3 b b - Mat.dot 3 a b * Mat.dot 3 a b := by
  rw [norm3, dot3, dot3, dot3, cross_0, cross_1, cross_2]; ring

/-- The distance to the plane, at the foot. -/
theorem plane_eq {p t0 t1 t2 : Store ℝ} (h : Tri 3 t0 t1 t2) {s t : ℝ}
    (g0 : Mat.dot 3 (sub t1 t0) (sub t1 t0) * s + Mat.dot 3 (sub t1 t0) (sub t2 t0) * t + Mat.dot 3 (sub t0 p) (sub t1 t0) = 0)
    (g1 : Mat.dot 3 (sub t1 t0) (sub t2 t0) * s + Mat.dot 3 (sub t2 t0) (sub t2 t0) * t + Mat.dot 3 (sub t0 p) (sub t2 t0) = 0) :
    dist2Pt p t0 t1 t2 = some (hit 3 p t0 t1 t2 s t) := by
  unfold dist2Pt; simp only []
  have hn : Mat.l2NormSqr 3 (Mat.cross3 (sub t1 t0) (sub t2 t0)) ≠ 0 := by rw [cross_norm]; exact h.pos.ne'
  rw [quot_ne hn]; congr 1
  rw [div_eq_iff hn, cross_norm]
  have e : Mat.dot 3 (sub p t0) (Mat.cross3 (sub t1 t0) (sub t2 t0)) * Mat.dot 3 (sub p t0) (Mat.cross3 (sub t1 t0) (sub t2 t0))
      = distSq 3 p t0 * (Mat.dot 3 (sub t1 t0) (sub t1 t0) * Mat.dot 3 (sub t2 t0) (sub t2 t0) - Mat.dot 3 (sub t1 t0) (sub t2 t0) * Mat.dot 3 (sub t1 t0) (sub t2 t0))
        - Mat.dot 3 (sub t2 t0) (sub t2 t0) * Mat.dot 3 (sub t0 p) (sub t1 t0) ^ 2
        - Mat.dot 3 (sub t1 t0) (sub t1 t0) * Mat.dot 3 (sub t0 p) (sub t2 t0) ^ 2
        + 2 * Mat.dot 3 (sub t1 t0) (sub t2 t0) * Mat.dot 3 (sub t0 p) (sub t1 t0) * Mat.dot 3 (sub t0 p) (sub t2 t0) := by
    simp only [dot3, distSq3, cross_0, cross_1, cross_2, sub]; ring
  rw [e, hit_poly]
  generalize Mat.dot 3 (sub t1 t0) (sub t1 t0) = a at *
  generalize Mat.dot 3 (sub t1 t0) (sub t2 t0) = b at *
  generalize Mat.dot 3 (sub t2 t0) (sub t2 t0) = c at *
  generalize Mat.dot 3 (sub t0 p) (sub t1 t0) = P at *
  generalize Mat.dot 3 (sub t0 p) (sub t2 t0) = Q at *
  obtain rfl : P = -(a * s + b * t) := by linarith
  obtain rfl : Q = -(b * s + c * t) := by linarith
  ring

/-- The formula for the part, at the closest point. -/
theorem formula_eq {p t0 t1 t2 : Store ℝ} (h : Tri 3 t0 t1 t2) {k : Nat} {s t : ℝ} (hp : Part (Mat.dot 3 (sub t1 t0) (sub t1 t0)) (Mat.dot 3 (sub t1 t0) (sub t2 t0))
    (Mat.dot 3 (sub t2 t0) (sub t2 t0)) (Mat.dot 3 (sub t0 p) (sub t1 t0)) (Mat.dot 3 (sub t0 p) (sub t2 t0)) k s t) :
    ptFormula p t0 t1 t2 k = some (hit 3 p t0 t1 t2 s t) := by
  rcases hp with ⟨rfl, rfl, rfl⟩ | ⟨rfl, rfl, rfl⟩ | ⟨rfl, rfl, rfl⟩ | ⟨rfl, rfl, e⟩ | ⟨rfl, hs, e⟩ | ⟨rfl, rfl, e⟩ | ⟨rfl, e, f⟩
  · rw [hit_distSq]; simp only [ptFormula]; congr 2; funext i; ring
  · rw [hit_distSq]; simp only [ptFormula]; congr 2; funext i; ring
  · rw [hit_distSq]; simp only [ptFormula]; congr 2; funext i; ring
  · have hn : Mat.l2NormSqr 3 (sub t1 t0) ≠ 0 := by rw [← norm_dot]; exact h.p0.ne'
    simp only [ptFormula]; rw [line3_eq _ _ _ hn, hit_poly]; congr 1
    rw [div_eq_iff hn, ← norm_dot]
    have : Mat.dot 3 (sub t1 t0) (sub p t0) = -Mat.dot 3 (sub t0 p) (sub t1 t0) := by simp only [dot3, sub]; ring
    rw [this]
    generalize Mat.dot 3 (sub t1 t0) (sub t1 t0) = a at *
    generalize Mat.dot 3 (sub t0 p) (sub t1 t0) = P at *
    obtain rfl : P = -(a * s) := by linarith
    ring
  · obtain rfl : t = 1 - s := by linarith
    have hn : Mat.dot 3 (sub t2 t1) (sub t2 t1)
      = Mat.dot 3 (sub t1 t0) (sub t1 t0) - (Mat.dot 3 (sub t1 t0) (sub t2 t0) + Mat.dot 3 (sub t1 t0) (sub t2 t0)) + Mat.dot 3 (sub t2 t0) (sub t2 t0) := by
      simp only [dot3, sub]; ring
    have hne : Mat.l2NormSqr 3 (sub t2 t1) ≠ 0 := by
      rw [← norm_dot, hn]
      have := h.pos; have := h.p0; have := h.p1
      refine ne_of_gt ?_
      have h' := quad_nonneg 3 (sub t1 t0) (sub t2 t0) 1 (-1)
      rcases h'.eq_or_lt with h' | h'
      · nlinarith [sq_nonneg (Mat.dot 3 (sub t1 t0) (sub t1 t0) - Mat.dot 3 (sub t2 t0) (sub t2 t0))]
      · linarith
    simp only [ptFormula]; rw [line3_eq _ _ _ hne, hit_poly]; congr 1
    rw [div_eq_iff hne, ← norm_dot, hn]
    have f1 : Mat.dot 3 (sub t2 t1) (sub p t1) = Mat.dot 3 (sub t0 p) (sub t1 t0) - Mat.dot 3 (sub t0 p) (sub t2 t0)
        + Mat.dot 3 (sub t1 t0) (sub t1 t0) - Mat.dot 3 (sub t1 t0) (sub t2 t0) := by simp only [dot3, sub]; ring
    have f2 : distSq 3 p t1 = distSq 3 p t0 + 2 * Mat.dot 3 (sub t0 p) (sub t1 t0) + Mat.dot 3 (sub t1 t0) (sub t1 t0) := by
      simp only [dot3, distSq3, sub]; ring
    rw [f1, f2]
    generalize Mat.dot 3 (sub t1 t0) (sub t1 t0) = a at *
    generalize Mat.dot 3 (sub t1 t0) (sub t2 t0) = b at *
    generalize Mat.dot 3 (sub t2 t0) (sub t2 t0) = c at *
    generalize Mat.dot 3 (sub t0 p) (sub t1 t0) = P at *
    generalize Mat.dot 3 (sub t0 p) (sub t2 t0) = Q at *
    obtain rfl : Q = s * (a - (b + b) + c) - c + b + P := by linarith
    ring
  · have hn : Mat.l2NormSqr 3 (sub t0 t2) ≠ 0 := by
      have : Mat.l2NormSqr 3 (sub t0 t2) = Mat.dot 3 (sub t2 t0) (sub t2 t0) := by simp only [norm3, dot3, sub]; ring
      rw [this]; exact h.p1.ne'
    simp only [ptFormula]; rw [line3_eq _ _ _ hn, hit_poly]; congr 1
    rw [div_eq_iff hn]
    have f0 : Mat.l2NormSqr 3 (sub t0 t2) = Mat.dot 3 (sub t2 t0) (sub t2 t0) := by simp only [norm3, dot3, sub]; ring
    have f1 : Mat.dot 3 (sub t0 t2) (sub p t2) = Mat.dot 3 (sub t0 p) (sub t2 t0) + Mat.dot 3 (sub t2 t0) (sub t2 t0) := by simp only [dot3, sub]; ring
    have f2 : distSq 3 p t2 = distSq 3 p t0 + 2 * Mat.dot 3 (sub t0 p) (sub t2 t0) + Mat.dot 3 (sub t2 t0) (sub t2 t0) := by
      simp only [dot3, distSq3, sub]; ring
    rw [f0, f1, f2]
    generalize Mat.dot 3 (sub t2 t0) (sub t2 t0) = c at *
    generalize Mat.dot 3 (sub t0 p) (sub t2 t0) = Q at *
    obtain rfl : Q = -(c * t) := by linarith
    ring
  · exact plane_eq h e f

/-! ### `pt_distance_type` -/

theorem detCols_eq (a b c : Store ℝ) : detCols a b c
    = a 0 * (b 1 * c 2 - b 2 * c 1) - b 0 * (a 1 * c 2 - a 2 * c 1) + c 0 * (a 1 * b 2 - a 2 * b 1) := by
  unfold detCols Mat.determinant Mat.at2; norm_num; ring

theorem edgeParam_eq (b0 q n : Store ℝ) (h : Mat.dot 3 b0 n = 0) (hn : Mat.l2NormSqr 3 n ≠ 0) :
    edgeParam b0 q n = (Mat.dot 3 q b0 / Mat.l2NormSqr 3 b0, -Mat.dot 3 n (Mat.cross3 b0 q) / (Mat.l2NormSqr 3 b0 * Mat.l2NormSqr 3 n)) := by
  have d0 : detCols b0 (Mat.cross3 b0 n) n = -(Mat.l2NormSqr 3 b0 * Mat.l2NormSqr 3 n) := by
    have : detCols b0 (Mat.cross3 b0 n) n = -(Mat.l2NormSqr 3 b0 * Mat.l2NormSqr 3 n) + Mat.dot 3 b0 n ^ 2 := by
      simp only [detCols_eq, cross_0, cross_1, cross_2, norm3, dot3]; ring
    rw [this, h]; ring
  have d1 : detCols q (Mat.cross3 b0 n) n = -(Mat.dot 3 q b0 * Mat.l2NormSqr 3 n) := by
    have : detCols q (Mat.cross3 b0 n) n = -(Mat.dot 3 q b0 * Mat.l2NormSqr 3 n) + Mat.dot 3 q n * Mat.dot 3 b0 n := by
      simp only [detCols_eq, cross_0, cross_1, cross_2, norm3, dot3]; ring
    rw [this, h]; ring
  have d2 : detCols b0 q n = Mat.dot 3 n (Mat.cross3 b0 q) := by
    simp only [detCols_eq, cross_0, cross_1, cross_2, dot3]; ring
  unfold edgeParam; simp only []
  rw [d0, d1, d2, neg_div_neg_eq, mul_div_mul_right _ _ hn, div_neg, neg_div]

theorem kkt_cases {a b c p q s t : ℝ} (hk : Kkt a b c p q s t) : (0 ≤ p ∧ 0 ≤ q ∧ s = 0 ∧ t = 0) ∨ (a + p ≤ 0 ∧ a + p ≤ b + q ∧ s = 1 ∧ t = 0)
    ∨ (c + q ≤ 0 ∧ c + q ≤ b + p ∧ s = 0 ∧ t = 1) ∨ (0 < s ∧ s < 1 ∧ t = 0 ∧ a * s + p = 0 ∧ 0 ≤ b * s + q)
    ∨ (0 < t ∧ t < 1 ∧ s = 0 ∧ c * t + q = 0 ∧ 0 ≤ b * t + p)
    ∨ (0 < s ∧ s < 1 ∧ t = 1 - s ∧ a * s + b * t + p = b * s + c * t + q ∧ a * s + b * t + p ≤ 0)
    ∨ (a * s + b * t + p = 0 ∧ b * s + c * t + q = 0) := by
  obtain ⟨s0, t0, st, h0, h1, h2⟩ := hk
  obtain ⟨g, hg⟩ : ∃ g, g = a * s + b * t + p := ⟨_, rfl⟩
  obtain ⟨k, hkk⟩ : ∃ k, k = b * s + c * t + q := ⟨_, rfl⟩
  rw [← hg, ← hkk] at h0 h1 h2 ⊢
  rcases s0.eq_or_lt with e | s0
  · subst e
    rcases t0.eq_or_lt with e | t0
    · subst e; left; refine ⟨by linarith, by linarith, rfl, rfl⟩
    · rcases (by linarith : t ≤ 1).eq_or_lt with e | t1
      · subst e; right; right; left; refine ⟨by linarith, by linarith, rfl, rfl⟩
      · right; right; right; right; left
        have k1 : k ≤ 0 := by by_contra hx; nlinarith [mul_pos t0 (not_le.1 hx)]
        have k2 : 0 ≤ k := by by_contra hx; nlinarith [mul_pos (sub_pos.2 t1) (neg_pos.2 (not_le.1 hx))]
        have k0 : k = 0 := le_antisymm k1 k2
        rw [k0] at h0 h1 h2 hkk
        exact ⟨t0, t1, rfl, by linarith, by linarith⟩
  · rcases t0.eq_or_lt with e | t0
    · subst e
      rcases (by linarith : s ≤ 1).eq_or_lt with e | t1
      · subst e; right; left; refine ⟨by linarith, by linarith, rfl, rfl⟩
      · right; right; right; left
        have k1 : g ≤ 0 := by by_contra hx; nlinarith [mul_pos s0 (not_le.1 hx)]
        have k2 : 0 ≤ g := by by_contra hx; nlinarith [mul_pos (sub_pos.2 t1) (neg_pos.2 (not_le.1 hx))]
        have k0 : g = 0 := le_antisymm k1 k2
        rw [k0] at h0 h1 h2 hg
        exact ⟨s0, t1, rfl, by linarith, by linarith⟩
    · rcases st.eq_or_lt with e | st
      · right; right; right; right; right; left
        obtain rfl : t = 1 - s := by linarith
        have k1 : g ≤ k := by by_contra hx; nlinarith [mul_pos s0 (sub_pos.2 (not_le.1 hx))]
        have k2 : k ≤ g := by by_contra hx; nlinarith [mul_pos t0 (sub_pos.2 (not_le.1 hx))]
        have k0 : g = k := le_antisymm k1 k2
        subst k0
        exact ⟨s0, by linarith, rfl, rfl, by linarith⟩
      · right; right; right; right; right; right
        obtain ⟨m, hm⟩ : ∃ m, m = s * g + t * k := ⟨_, rfl⟩
        rw [← hm] at h0 h1 h2
        have a1 := mul_le_mul_of_nonneg_left h1 s0.le
        have a2 := mul_le_mul_of_nonneg_left h2 t0.le
        have m0 : 0 ≤ m := by by_contra hx; nlinarith [mul_pos (sub_pos.2 st) (neg_pos.2 (not_le.1 hx))]
        obtain rfl : m = 0 := le_antisymm h0 m0
        have b1 := mul_nonneg s0.le h1
        have b2 := mul_nonneg t0.le h2
        have c1 : s * g = 0 := by linarith
        have c2 : t * k = 0 := by linarith
        exact ⟨(mul_eq_zero.1 c1).resolve_left s0.ne', (mul_eq_zero.1 c2).resolve_left t0.ne'⟩

theorem ptType_part {p t0 t1 t2 : Store ℝ} (h : Tri 3 t0 t1 t2) : ∃ s t, Kkt (Mat.dot 3 (sub t1 t0) (sub t1 t0)) (Mat.dot 3 (sub t1 t0) (sub t2 t0))
    (Mat.dot 3 (sub t2 t0) (sub t2 t0)) (Mat.dot 3 (sub t0 p) (sub t1 t0)) (Mat.dot 3 (sub t0 p) (sub t2 t0)) s t ∧
    Part (Mat.dot 3 (sub t1 t0) (sub t1 t0)) (Mat.dot 3 (sub t1 t0) (sub t2 t0))
    (Mat.dot 3 (sub t2 t0) (sub t2 t0)) (Mat.dot 3 (sub t0 p) (sub t1 t0)) (Mat.dot 3 (sub t0 p) (sub t2 t0)) (ptType p t0 t1 t2) s t := by
  have hn : Mat.l2NormSqr 3 (Mat.cross3 (sub t1 t0) (sub t2 t0)) ≠ 0 := by rw [cross_norm]; exact h.pos.ne'
  have hN := cross_norm (sub t1 t0) (sub t2 t0)
  unfold ptType; simp only []
  rw [edgeParam_eq (sub t1 t0) _ _ (by simp only [dot3, cross_0, cross_1, cross_2]; ring) hn,
    edgeParam_eq (sub t2 t1) _ _ (by simp only [dot3, cross_0, cross_1, cross_2, sub]; ring) hn,
    edgeParam_eq (sub t0 t2) _ _ (by simp only [dot3, cross_0, cross_1, cross_2, sub]; ring) hn]
  have E : Mat.l2NormSqr 3 (sub t2 t1)
      = Mat.dot 3 (sub t1 t0) (sub t1 t0) - (Mat.dot 3 (sub t1 t0) (sub t2 t0) + Mat.dot 3 (sub t1 t0) (sub t2 t0)) + Mat.dot 3 (sub t2 t0) (sub t2 t0) := by
    simp only [dot3, norm3, sub]; ring
  have e0 : Mat.dot 3 (sub p t0) (sub t1 t0) = -Mat.dot 3 (sub t0 p) (sub t1 t0) := by simp only [dot3, sub]; ring
  have e1 : Mat.dot 3 (sub p t1) (sub t2 t1) = Mat.dot 3 (sub t0 p) (sub t1 t0) - Mat.dot 3 (sub t0 p) (sub t2 t0)
      + Mat.dot 3 (sub t1 t0) (sub t1 t0) - Mat.dot 3 (sub t1 t0) (sub t2 t0) := by simp only [dot3, sub]; ring
  have e2 : Mat.dot 3 (sub p t2) (sub t0 t2) = Mat.dot 3 (sub t0 p) (sub t2 t0) + Mat.dot 3 (sub t2 t0) (sub t2 t0) := by simp only [dot3, sub]; ring
  have n2 : Mat.l2NormSqr 3 (sub t0 t2) = Mat.dot 3 (sub t2 t0) (sub t2 t0) := by simp only [norm3, dot3, sub]; ring
  have o0 : -Mat.dot 3 (Mat.cross3 (sub t1 t0) (sub t2 t0)) (Mat.cross3 (sub t1 t0) (sub p t0))
      = -(Mat.dot 3 (sub t1 t0) (sub t2 t0) * Mat.dot 3 (sub t0 p) (sub t1 t0) - Mat.dot 3 (sub t1 t0) (sub t1 t0) * Mat.dot 3 (sub t0 p) (sub t2 t0)) := by
    simp only [dot3, cross_0, cross_1, cross_2, sub]; ring
  have o1 : -Mat.dot 3 (Mat.cross3 (sub t1 t0) (sub t2 t0)) (Mat.cross3 (sub t2 t1) (sub p t1))
      = (Mat.dot 3 (sub t1 t0) (sub t2 t0) * Mat.dot 3 (sub t0 p) (sub t1 t0) - Mat.dot 3 (sub t1 t0) (sub t1 t0) * Mat.dot 3 (sub t0 p) (sub t2 t0))
        + (Mat.dot 3 (sub t1 t0) (sub t2 t0) * Mat.dot 3 (sub t0 p) (sub t2 t0) - Mat.dot 3 (sub t2 t0) (sub t2 t0) * Mat.dot 3 (sub t0 p) (sub t1 t0))
        - (Mat.dot 3 (sub t1 t0) (sub t1 t0) * Mat.dot 3 (sub t2 t0) (sub t2 t0) - Mat.dot 3 (sub t1 t0) (sub t2 t0) * Mat.dot 3 (sub t1 t0) (sub t2 t0)) := by
    simp only [dot3, cross_0, cross_1, cross_2, sub]; ring
  have o2 : -Mat.dot 3 (Mat.cross3 (sub t1 t0) (sub t2 t0)) (Mat.cross3 (sub t0 t2) (sub p t2))
      = -(Mat.dot 3 (sub t1 t0) (sub t2 t0) * Mat.dot 3 (sub t0 p) (sub t2 t0) - Mat.dot 3 (sub t2 t0) (sub t2 t0) * Mat.dot 3 (sub t0 p) (sub t1 t0)) := by
    simp only [dot3, cross_0, cross_1, cross_2, sub]; ring
  rw [e0, e1, e2, n2, o0, o1, o2, hN, E, ← norm_dot 3 (sub t1 t0)]
  have ha := h.p0; have hc := h.p1; have hD := h.pos
  have hE : 0 < Mat.dot 3 (sub t1 t0) (sub t1 t0) - (Mat.dot 3 (sub t1 t0) (sub t2 t0) + Mat.dot 3 (sub t1 t0) (sub t2 t0)) + Mat.dot 3 (sub t2 t0) (sub t2 t0) := by
    have h' := quad_nonneg 3 (sub t1 t0) (sub t2 t0) 1 (-1)
    rcases h'.eq_or_lt with h' | h'
    · nlinarith [sq_nonneg (Mat.dot 3 (sub t1 t0) (sub t1 t0) - Mat.dot 3 (sub t2 t0) (sub t2 t0))]
    · linarith
  clear e0 e1 e2 n2 o0 o1 o2 hN E hn
  generalize Mat.dot 3 (sub t1 t0) (sub t1 t0) = a at *
  generalize Mat.dot 3 (sub t1 t0) (sub t2 t0) = b at *
  generalize Mat.dot 3 (sub t2 t0) (sub t2 t0) = c at *
  generalize Mat.dot 3 (sub t0 p) (sub t1 t0) = P at *
  generalize Mat.dot 3 (sub t0 p) (sub t2 t0) = Q at *
  have x0 : (0 < -P / a) ↔ P < 0 := by rw [lt_div_iff₀ ha]; constructor <;> intro h <;> linarith
  have x1 : (-P / a < 1) ↔ -P < a := by rw [div_lt_one ha]
  have x2 : (0 ≤ -(b * P - a * Q) / (a * (a * c - b * b))) ↔ b * P - a * Q ≤ 0 := by
    rw [le_div_iff₀ (mul_pos ha hD)]; constructor <;> intro h <;> linarith
  have x3 : (-P / a ≤ 0) ↔ 0 ≤ P := by rw [div_le_iff₀ ha]; constructor <;> intro h <;> linarith
  have x4 : (1 ≤ -P / a) ↔ a ≤ -P := by rw [one_le_div ha]
  have y0 : (0 < (P - Q + a - b) / (a - (b + b) + c)) ↔ 0 < P - Q + a - b := by rw [lt_div_iff₀ hE]; constructor <;> intro h <;> linarith
  have y1 : ((P - Q + a - b) / (a - (b + b) + c) < 1) ↔ P - Q + a - b < a - (b + b) + c := by rw [div_lt_one hE]
  have y2 : (0 ≤ (b * P - a * Q + (b * Q - c * P) - (a * c - b * b)) / ((a - (b + b) + c) * (a * c - b * b)))
      ↔ a * c - b * b ≤ b * Q - c * P + (b * P - a * Q) := by
    rw [le_div_iff₀ (mul_pos hE hD)]; constructor <;> intro h <;> linarith
  have y3 : ((P - Q + a - b) / (a - (b + b) + c) ≤ 0) ↔ P - Q + a - b ≤ 0 := by rw [div_le_iff₀ hE]; constructor <;> intro h <;> linarith
  have y4 : (1 ≤ (P - Q + a - b) / (a - (b + b) + c)) ↔ a - (b + b) + c ≤ P - Q + a - b := by rw [one_le_div hE]
  have z0 : (0 < (Q + c) / c) ↔ 0 < Q + c := by rw [lt_div_iff₀ hc]; constructor <;> intro h <;> linarith
  have z1 : ((Q + c) / c < 1) ↔ Q < 0 := by rw [div_lt_one hc]; constructor <;> intro h <;> linarith
  have z2 : (0 ≤ -(b * Q - c * P) / (c * (a * c - b * b))) ↔ b * Q - c * P ≤ 0 := by
    rw [le_div_iff₀ (mul_pos hc hD)]; constructor <;> intro h <;> linarith
  have z3 : ((Q + c) / c ≤ 0) ↔ Q + c ≤ 0 := by rw [div_le_iff₀ hc]; constructor <;> intro h <;> linarith
  have z4 : (1 ≤ (Q + c) / c) ↔ 0 ≤ Q := by rw [one_le_div hc]; constructor <;> intro h <;> linarith
  simp only [gt_iff_lt, ge_iff_le, x0, x1, x2, x3, x4, y0, y1, y2, y3, y4, z0, z1, z2, z3, z4]
  split_ifs with c3 c4 c5 c0 c1 c2
  · exact ⟨_, _, kktS ha c3.1 c3.2.1 c3.2.2, part3 ha⟩
  · refine ⟨_, _, kktH (by linarith [c4.2.1]) (by linarith [c4.1]) c4.2.2, part4 (by ring) ?_⟩
    exact div_mul_cancel₀ _ hE.ne'
  · exact ⟨_, _, kktT hc c5.2.1 (by linarith [c5.1]) c5.2.2, part5 hc⟩
  · exact ⟨0, 0, kkt00 c0.1 c0.2, by simp [Part]⟩
  · exact ⟨1, 0, kkt10 (by linarith [c1.2]) (by linarith [c1.1]), by simp [Part]⟩
  · exact ⟨0, 1, kkt01 (by linarith [c2.1]) (by linarith [c2.2]), by simp [Part]⟩
  · obtain ⟨s, t, -, hk⟩ := ptParams_kkt (p := P) (q := Q) ha hc hD
    refine ⟨s, t, hk, Or.inr (Or.inr (Or.inr (Or.inr (Or.inr (Or.inr ⟨rfl, ?_⟩)))))⟩
    rcases kkt_cases hk with k | k | k | k | k | k | k
    · exact absurd ⟨k.1, k.2.1⟩ c0
    · exact absurd ⟨by linarith [k.2.1], by linarith [k.1]⟩ c1
    · exact absurd ⟨by linarith [k.1], by linarith [k.2.1]⟩ c2
    · obtain ⟨s0, s1, -, g, g'⟩ := k
      refine absurd ⟨?_, ?_, ?_⟩ c3
      · nlinarith [mul_pos ha s0]
      · nlinarith [mul_pos ha (sub_pos.2 s1)]
      · nlinarith [mul_nonneg ha.le g']
    · obtain ⟨s0, s1, -, g, g'⟩ := k
      refine absurd ⟨?_, ?_, ?_⟩ c5
      · nlinarith [mul_pos hc (sub_pos.2 s1)]
      · nlinarith [mul_pos hc s0]
      · nlinarith [mul_nonneg hc.le g']
    · obtain ⟨s0, s1, rfl, g, g'⟩ := k
      have e : s * (a - (b + b) + c) = c + Q - b - P := by linarith
      refine absurd ⟨?_, ?_, ?_⟩ c4
      · nlinarith [mul_pos hE (sub_pos.2 s1)]
      · nlinarith [mul_pos hE s0]
      · have : (a * s + b * (1 - s) + P) * (a - (b + b) + c) = a * c - b * b - ((b * Q - c * P) + (b * P - a * Q)) := by
          linear_combination (a - b) * e
        nlinarith [mul_nonneg (neg_nonneg.2 g') hE.le]
    · exact k

theorem dist2PtUnclassified_formula (p t0 t1 t2 : Store ℝ) : dist2PtUnclassified p t0 t1 t2 = ptFormula p t0 t1 t2 (ptType p t0 t1 t2) := by
  unfold dist2PtUnclassified ptFormula
  have e : ∀ a b, dist2Pe 3 p a b = line3 p a b := fun a b => by unfold dist2Pe; simp
  split <;> simp only [dist2Pp_eq, e] <;> split <;> first | rfl | (exfalso; simp_all)

end Verif.Dist
