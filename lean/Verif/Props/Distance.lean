import Verif.Proof.DistanceMore
import Verif.Proof.DistanceFlat

/-! C79: distances of points, edges and triangles, the barrier and the mollifier. -/
namespace Verif.Dist

open Verif.Mat (Store)
open Verif.Elastic (IsPartials)

/-- Three numbers as a vector. -/
def v3 (a b c : ℝ) : Store ℝ := fun i => if i = 0 then a else if i = 1 then b else c

/-! ## Points and edges -/

/-- `dist2_pp` is the square of the distance, `dist_grad_pp` its gradient. -/
theorem dist2_pp (n : Nat) (a b : Store ℝ) : dist2Pp n a b = distSq n a b
    ∧ IsPartials n (fun a => dist2Pp n a b) a (gPp a b).1 ∧ IsPartials n (fun b => dist2Pp n a b) b (gPp a b).2 :=
  ⟨dist2Pp_eq n a b, pp_partials n a b⟩

/-- `dist2_pe_unclassified` returns the square of the distance of a point and an edge, for edges of a length other than zero in two and three dimensions. -/
theorem dist2_pe_unclassified_partial (big : ℝ) {n : Nat} (hn : n = 2 ∨ n = 3) (p e0 e1 : Store ℝ) (h : ¬∀ i < n, e0 i = e1 i) :
    ∃ d, dist2PeUnclassified big n p e0 e1 = some d ∧ IsDist n {p} (Segment e0 e1) d := by
  refine dist2PeUnclassified_isDist big hn p e0 e1 fun z => h fun i hi => ?_
  rw [norm_eq, Finset.sum_eq_zero_iff_of_nonneg fun i _ => mul_self_nonneg _] at z
  have := mul_self_eq_zero.1 (z ⟨i, hi⟩ (Finset.mem_univ _))
  simp only [sub] at this
  linarith

/-- For an edge of length zero the code divides zero by zero, although the distance is that of two points. -/
theorem dist2_pe_degenerate_violated (big : ℝ) (p e : Store ℝ) :
    dist2PeUnclassified big 3 p e e = none ∧ dist2PeUnclassified big 2 p e e = none ∧ IsDist 3 {p} (Segment e e) (distSq 3 p e) := by
  have z : sub e e = fun _ => 0 := by funext i; simp [sub]
  refine ⟨?_, ?_, ?_⟩
  · unfold dist2PeUnclassified peType line3 quot; simp [z, norm3, dot3, not_lt.2 (zero_le_one (α := ℝ))]
  · unfold dist2PeUnclassified peType line2 quot; simp [z, norm2, dot2, not_lt.2 (zero_le_one (α := ℝ))]
  · have := seg_isDist 3 p e e 0 (by simp [Opt, z, norm3, dot3])
    rwa [(seg_ends 3 p e e).1] at this

/-- In one dimension a point on the edge gets the largest number instead of zero. -/
theorem dist2_pe_1d_violated (big : ℝ) : dist2PeUnclassified big 1 (fun _ => 1) (fun _ => 0) (fun _ => 2) = some big
    ∧ IsDist 1 {fun _ => 1} (Segment (fun _ => 0) fun _ => 2) 0 := by
  constructor
  · unfold dist2PeUnclassified peType
    simp only [dot_eq, norm_eq, sub]; norm_num
  · exact isDist_zero ⟨_, rfl, _, ⟨1 / 2, by norm_num, by norm_num, rfl⟩, fun i _ => by norm_num⟩

/-- `dist2_pe` is the distance to the edge in one dimension and the distance to the line through it in two and three dimensions. -/
theorem dist2_pe (p e0 e1 : Store ℝ) : (∃ d, dist2Pe 1 p e0 e1 = some d ∧ IsDist 1 {p} (Segment e0 e1) d)
    ∧ (∀ n, n = 2 ∨ n = 3 → Mat.l2NormSqr n (sub e1 e0) ≠ 0 → ∃ d, dist2Pe n p e0 e1 = some d ∧ IsDist n {p} (Line e0 e1) d) := by
  constructor
  · refine ⟨_, by unfold dist2Pe; rw [if_pos rfl], ?_⟩
    have d1 : ∀ x y : Store ℝ, distSq 1 x y = (x 0 - y 0) ^ 2 := fun x y => by unfold distSq; simp
    split_ifs with h
    · refine isDist_zero ⟨p, rfl, _, ⟨(p 0 - e0 0) / (e1 0 - e0 0), ?_, ?_, rfl⟩, ?_⟩
      all_goals
        have ne : e1 0 - e0 0 ≠ 0 := by
          intro z; have : e1 0 = e0 0 := by linarith
          rw [this] at h; exact absurd h (not_lt.2 (mul_self_nonneg _))
      · rcases mul_neg_iff.1 h with ⟨a, b⟩ | ⟨a, b⟩
        · exact div_nonneg (by linarith) (by linarith)
        · exact div_nonneg_of_nonpos (by linarith) (by linarith)
      · rcases mul_neg_iff.1 h with ⟨a, b⟩ | ⟨a, b⟩
        · rw [div_le_one (by linarith)]; linarith
        · rw [div_le_one_of_neg (by linarith)]; linarith
      · intro i hi
        obtain rfl : i = 0 := by omega
        field_simp; ring
    · have h := not_lt.1 h
      refine ⟨?_, ?_⟩
      · rcases min_choice ((p 0 - e0 0) * (p 0 - e0 0)) ((p 0 - e1 0) * (p 0 - e1 0)) with k | k
        · exact ⟨p, rfl, _, ⟨0, le_refl _, by norm_num, rfl⟩, by rw [k, d1]; ring⟩
        · exact ⟨p, rfl, _, ⟨1, by norm_num, le_refl _, rfl⟩, by rw [k, d1]; ring⟩
      · rintro y ⟨a, ha, b, ⟨r, r0, r1, rfl⟩, rfl⟩
        rw [Set.mem_singleton_iff.1 ha, d1]
        have e : (p 0 - ((1 - r) * e0 0 + r * e1 0)) ^ 2
            = (1 - r) ^ 2 * ((p 0 - e0 0) * (p 0 - e0 0)) + 2 * (r * (1 - r)) * ((p 0 - e0 0) * (p 0 - e1 0)) + r ^ 2 * ((p 0 - e1 0) * (p 0 - e1 0)) := by ring
        rw [e]
        -- the product of the two differences is at least the smaller square
        have k : min ((p 0 - e0 0) * (p 0 - e0 0)) ((p 0 - e1 0) * (p 0 - e1 0)) ≤ (p 0 - e0 0) * (p 0 - e1 0) := by
          generalize p 0 - e0 0 = x at *
          generalize p 0 - e1 0 = y at *
          rcases le_total (x * x) (y * y) with l | l
          · rw [min_eq_left l]
            rcases mul_nonneg_iff.1 h with ⟨a, b⟩ | ⟨a, b⟩ <;> nlinarith
          · rw [min_eq_right l]
            rcases mul_nonneg_iff.1 h with ⟨a, b⟩ | ⟨a, b⟩ <;> nlinarith
        have k0 := min_le_left ((p 0 - e0 0) * (p 0 - e0 0)) ((p 0 - e1 0) * (p 0 - e1 0))
        have k1 := min_le_right ((p 0 - e0 0) * (p 0 - e0 0)) ((p 0 - e1 0) * (p 0 - e1 0))
        have := mul_nonneg r0 (sub_nonneg.2 r1)
        generalize min ((p 0 - e0 0) * (p 0 - e0 0)) ((p 0 - e1 0) * (p 0 - e1 0)) = m at *
        have w0 := mul_le_mul_of_nonneg_left k0 (sq_nonneg (1 - r))
        have w1 := mul_le_mul_of_nonneg_left k this
        have w2 := mul_le_mul_of_nonneg_left k1 (sq_nonneg r)
        nlinarith
  · rintro n (rfl | rfl) h
    · exact ⟨_, (dist2Pe_line p e0 e1).1.trans (line2_eq p e0 e1 h), line_isDist 2 p e0 e1 h⟩
    · exact ⟨_, (dist2Pe_line p e0 e1).2.trans (line3_eq p e0 e1 h), line_isDist 3 p e0 e1 h⟩

/-! ## Points and triangles -/

/-- `dist_pt_sqr` returns the square of the distance of a point and a triangle, in any number of dimensions; the area of the triangle is not zero (`Tri`). -/
theorem dist_pt_sqr_partial {n : Nat} {t0 t1 t2 : Store ℝ} (h : Tri n t0 t1 t2) (p : Store ℝ) :
    ∃ d, distPtSqr n p t0 t1 t2 = some d ∧ IsDist n {p} (Triangle t0 t1 t2) d := by
  obtain ⟨s, t, e, k⟩ := ptParams_kkt (p := Mat.dot n (sub t0 p) (sub t1 t0)) (q := Mat.dot n (sub t0 p) (sub t2 t0)) h.p0 h.p1 h.pos
  exact ⟨_, by unfold distPtSqr; simp [e], kkt_isDist k⟩

/-- `pt_category_and_dist2` returns the distance and a part of the triangle that contains the closest point. -/
theorem pt_category_and_dist2_partial {n : Nat} {t0 t1 t2 : Store ℝ} (h : Tri n t0 t1 t2) (p : Store ℝ) :
    ∃ k d, ptCategoryDist n p t0 t1 t2 = some (k, d) ∧ k ≤ 6 ∧ IsDist n {p} (Triangle t0 t1 t2) d ∧ IsDist n {p} (ptPart t0 t1 t2 k) d := by
  obtain ⟨k, s, t, e, hp⟩ := ptCategory_part (p := Mat.dot n (sub t0 p) (sub t1 t0)) (q := Mat.dot n (sub t0 p) (sub t2 t0)) h.p0 h.p1 h.pos
  obtain ⟨s', t', e', hk⟩ := ptParams_kkt (p := Mat.dot n (sub t0 p) (sub t1 t0)) (q := Mat.dot n (sub t0 p) (sub t2 t0)) h.p0 h.p1 h.pos
  rw [← ptCategory_params, e] at e'
  simp only [Option.map_some, Option.some.injEq, Prod.mk.injEq] at e'
  obtain ⟨rfl, rfl⟩ := e'
  refine ⟨k, _, by unfold ptCategoryDist; simp [e], ?_, kkt_isDist hk, part_isDist hk hp⟩
  rcases hp with ⟨rfl, _⟩ | ⟨rfl, _⟩ | ⟨rfl, _⟩ | ⟨rfl, _⟩ | ⟨rfl, _⟩ | ⟨rfl, _⟩ | ⟨rfl, _⟩ <;> norm_num

/-- The category selects a formula (distance to the corner, the line, the plane) that gives the same distance. -/
theorem pt_category_formula_partial {t0 t1 t2 : Store ℝ} (h : Tri 3 t0 t1 t2) (p : Store ℝ) :
    ∃ k d, ptCategoryDist 3 p t0 t1 t2 = some (k, d) ∧ ptFormula p t0 t1 t2 k = some d := by
  obtain ⟨k, s, t, e, hp⟩ := ptCategory_part (p := Mat.dot 3 (sub t0 p) (sub t1 t0)) (q := Mat.dot 3 (sub t0 p) (sub t2 t0)) h.p0 h.p1 h.pos
  exact ⟨k, _, by unfold ptCategoryDist; simp [e], formula_eq h hp⟩

/-- `pt_distance_type` returns a part that contains the closest point, `dist2_pt_unclassified` the square of the distance. -/
theorem dist2_pt_unclassified_partial {t0 t1 t2 : Store ℝ} (h : Tri 3 t0 t1 t2) (p : Store ℝ) :
    ∃ d, dist2PtUnclassified p t0 t1 t2 = some d ∧ IsDist 3 {p} (Triangle t0 t1 t2) d ∧ IsDist 3 {p} (ptPart t0 t1 t2 (ptType p t0 t1 t2)) d := by
  obtain ⟨s, t, hk, hp⟩ := ptType_part (p := p) h
  exact ⟨_, (dist2PtUnclassified_formula p t0 t1 t2).trans (formula_eq h hp), kkt_isDist hk, part_isDist hk hp⟩

/-- The functions of the two files return the same. -/
theorem pt_functions_agree {t0 t1 t2 : Store ℝ} (h : Tri 3 t0 t1 t2) (p : Store ℝ) : dist2PtUnclassified p t0 t1 t2 = distPtSqr 3 p t0 t1 t2 := by
  obtain ⟨d, e, k⟩ := dist_pt_sqr_partial h p
  obtain ⟨d', e', k', -⟩ := dist2_pt_unclassified_partial h p
  rw [e, e', k.unique k']

/-- `dist2_pt` is the distance to the plane of the triangle. -/
theorem dist2_pt {t0 t1 t2 : Store ℝ} (h : Tri 3 t0 t1 t2) (p : Store ℝ) : ∃ d, dist2Pt p t0 t1 t2 = some d ∧ IsDist 3 {p} (Plane t0 t1 t2) d := by
  have k := part6 (p := Mat.dot 3 (sub t0 p) (sub t1 t0)) (q := Mat.dot 3 (sub t0 p) (sub t2 t0)) h.pos
  rcases k with ⟨k, _⟩ | ⟨k, _⟩ | ⟨k, _⟩ | ⟨k, _⟩ | ⟨k, _⟩ | ⟨k, _⟩ | ⟨-, g0, g1⟩
  all_goals first | exact absurd k (by norm_num) | exact ⟨_, plane_eq h g0 g1, plane_isDist g0 g1⟩

/-- For a triangle of area zero all functions divide zero by zero, wherever the point is. -/
theorem pt_flat_violated {t0 t1 t2 : Store ℝ} (h : ¬Tri 3 t0 t1 t2) (p : Store ℝ) :
    distPtSqr 3 p t0 t1 t2 = none ∧ ptCategoryDist 3 p t0 t1 t2 = none ∧ dist2PtUnclassified p t0 t1 t2 = none := by
  have z := le_antisymm (not_lt.1 fun k => h ⟨k⟩) (gram_nonneg 3 (sub t1 t0) (sub t2 t0))
  exact ⟨(flat_params z).1, (flat_params z).2, flat_formula z⟩

/-- A triangle, and a flat triangle. -/
example : Tri 3 (v3 0 0 0) (v3 1 0 0) (v3 0 1 0) ∧ ¬Tri 3 (v3 0 0 0) (v3 1 0 0) (v3 2 0 0) := by
  constructor
  · constructor; simp only [dot3, sub, v3]; norm_num
  · rintro ⟨h⟩; simp only [dot3, sub, v3] at h; norm_num at h

/-! ## Two edges -/

/-- `dist_ee_sqr`: the distance of two edges, if the second edge is not a point, the squared area D is zero or not below the tolerance, and the numerators of the
two coefficients are zero or not below the tolerance. -/
theorem dist_ee_sqr_partial {eps : ℝ} (he : 0 < eps) {n : Nat} (ea0 ea1 eb0 eb1 : Store ℝ) :
    let u := sub ea1 ea0; let v := sub eb1 eb0; let w := sub ea0 eb0
    let D := Mat.dot n u u * Mat.dot n v v - Mat.dot n u v * Mat.dot n u v
    let x := eeNumbers eps (Mat.dot n u u) (Mat.dot n u v) (Mat.dot n v v) (Mat.dot n u w) (Mat.dot n v w)
    Mat.dot n v v ≠ 0 → (D = 0 ∨ eps ≤ D) → (x.sN = 0 ∨ eps ≤ |x.sN|) → (x.tN = 0 ∨ eps ≤ |x.tN|) →
    IsDist n (Segment ea0 ea1) (Segment eb0 eb1) (distEeSqr eps n ea0 ea1 eb0 eb1) := by
  intro u v w D x hc hD hs ht
  have h := scal n u v w
  obtain ⟨s, t, k⟩ := eeNumbers_sol h (lt_of_le_of_ne h.c0 (Ne.symm hc)) he hD
  have e : distEeSqr eps n ea0 ea1 eb0 eb1 = eeAt n u v w s t := eeValue_sol k hs ht he
  rw [e]
  exact ee_isDist k.os k.ot subset_rfl subset_rfl ⟨s, k.os.1, k.os.2.1, rfl⟩ ⟨t, k.ot.1, k.ot.2.1, rfl⟩

/-- For any two edges, the second of which is not a point, `dist_ee_sqr` returns the distance if the tolerance is small enough. -/
theorem dist_ee_sqr_small_partial {n : Nat} (ea0 ea1 eb0 eb1 : Store ℝ) (hc : Mat.dot n (sub eb1 eb0) (sub eb1 eb0) ≠ 0) :
    ∃ eps0 > 0, ∀ eps, 0 < eps → eps ≤ eps0 → IsDist n (Segment ea0 ea1) (Segment eb0 eb1) (distEeSqr eps n ea0 ea1 eb0 eb1) := by
  have pick : ∀ z : ℝ, ∃ m > 0, ∀ eps, 0 < eps → eps ≤ m → z = 0 ∨ eps ≤ |z| := by
    intro z
    by_cases hz : z = 0
    · exact ⟨1, by norm_num, fun _ _ _ => Or.inl hz⟩
    · exact ⟨|z|, abs_pos.2 hz, fun _ _ h => Or.inr h⟩
  have g := gram_nonneg n (sub ea1 ea0) (sub eb1 eb0)
  obtain ⟨m0, p0, k0⟩ := pick (Mat.dot n (sub ea1 ea0) (sub ea1 ea0) * Mat.dot n (sub eb1 eb0) (sub eb1 eb0)
    - Mat.dot n (sub ea1 ea0) (sub eb1 eb0) * Mat.dot n (sub ea1 ea0) (sub eb1 eb0))
  obtain ⟨m1, p1, k1⟩ := pick (eeNumbers m0 (Mat.dot n (sub ea1 ea0) (sub ea1 ea0)) (Mat.dot n (sub ea1 ea0) (sub eb1 eb0)) (Mat.dot n (sub eb1 eb0) (sub eb1 eb0))
    (Mat.dot n (sub ea1 ea0) (sub ea0 eb0)) (Mat.dot n (sub eb1 eb0) (sub ea0 eb0))).sN
  obtain ⟨m2, p2, k2⟩ := pick (eeNumbers m0 (Mat.dot n (sub ea1 ea0) (sub ea1 ea0)) (Mat.dot n (sub ea1 ea0) (sub eb1 eb0)) (Mat.dot n (sub eb1 eb0) (sub eb1 eb0))
    (Mat.dot n (sub ea1 ea0) (sub ea0 eb0)) (Mat.dot n (sub eb1 eb0) (sub ea0 eb0))).tN
  refine ⟨min m0 (min m1 m2), lt_min p0 (lt_min p1 p2), fun eps he hle => ?_⟩
  have l0 := hle.trans (min_le_left _ _)
  have l1 := (hle.trans (min_le_right _ _)).trans (min_le_left _ _)
  have l2 := (hle.trans (min_le_right _ _)).trans (min_le_right _ _)
  have hD := k0 eps he l0
  rw [abs_of_nonneg g] at hD
  have hM := k0 m0 p0 le_rfl
  rw [abs_of_nonneg g] at hM
  have same := eeNumbers_eps (d := Mat.dot n (sub ea1 ea0) (sub ea0 eb0)) (e := Mat.dot n (sub eb1 eb0) (sub ea0 eb0)) (eps := eps) (eps' := m0)
    (a := Mat.dot n (sub ea1 ea0) (sub ea1 ea0)) (b := Mat.dot n (sub ea1 ea0) (sub eb1 eb0)) (c := Mat.dot n (sub eb1 eb0) (sub eb1 eb0))
    ⟨fun h => h.trans_le l0, fun h => hM.elim (fun z => z.trans_lt he) fun z => absurd h (not_lt.2 z)⟩
  refine dist_ee_sqr_partial he ea0 ea1 eb0 eb1 hc hD ?_ ?_
  · rw [same]; exact k1 eps he l1
  · rw [same]; exact k2 eps he l2

/-- Two short edges of length h that cross in their middles: the distance is zero, the function returns h²/4. -/
theorem dist_ee_sqr_short_violated {h eps : ℝ} (h0 : 0 < h) (he : 0 < eps) (h1 : h ^ 4 < eps) (h2 : eps ≤ h ^ 2 / 2) :
    distEeSqr eps 3 (v3 (-h / 2) 0 0) (v3 (h / 2) 0 0) (v3 0 (-h / 2) 0) (v3 0 (h / 2) 0) = h ^ 2 / 4
    ∧ IsDist 3 (Segment (v3 (-h / 2) 0 0) (v3 (h / 2) 0 0)) (Segment (v3 0 (-h / 2) 0) (v3 0 (h / 2) 0)) 0 := by
  constructor
  · unfold distEeSqr eeNumbers eeValue
    have a : Mat.dot 3 (sub (v3 (h / 2) 0 0) (v3 (-h / 2) 0 0)) (sub (v3 (h / 2) 0 0) (v3 (-h / 2) 0 0)) = h ^ 2 := by simp [dot3, sub, v3]; ring
    have b : Mat.dot 3 (sub (v3 (h / 2) 0 0) (v3 (-h / 2) 0 0)) (sub (v3 0 (h / 2) 0) (v3 0 (-h / 2) 0)) = 0 := by simp [dot3, sub, v3]
    have c : Mat.dot 3 (sub (v3 0 (h / 2) 0) (v3 0 (-h / 2) 0)) (sub (v3 0 (h / 2) 0) (v3 0 (-h / 2) 0)) = h ^ 2 := by simp [dot3, sub, v3]; ring
    have d : Mat.dot 3 (sub (v3 (h / 2) 0 0) (v3 (-h / 2) 0 0)) (sub (v3 (-h / 2) 0 0) (v3 0 (-h / 2) 0)) = -(h ^ 2 / 2) := by simp [dot3, sub, v3]; ring
    have e : Mat.dot 3 (sub (v3 0 (h / 2) 0) (v3 0 (-h / 2) 0)) (sub (v3 (-h / 2) 0 0) (v3 0 (-h / 2) 0)) = h ^ 2 / 2 := by simp [dot3, sub, v3]; ring
    simp only [a, b, c, d, e]
    have p : 0 < h ^ 2 := pow_pos h0 2
    rw [if_pos (show h ^ 2 * h ^ 2 - 0 * 0 < eps by nlinarith)]
    have n0 : ¬h ^ 2 / 2 < 0 := not_lt.2 (by linarith)
    have n1 : ¬h ^ 2 / 2 > h ^ 2 := not_lt.2 (by linarith)
    have n2 : ¬|h ^ 2 / 2| < eps := not_lt.2 (by rw [abs_of_pos (by linarith)]; exact h2)
    simp only [if_neg n0, if_neg n1, abs_zero, if_pos he, if_neg n2]
    have q : h ^ 2 / 2 / h ^ 2 = 1 / 2 := by field_simp
    rw [q, norm3]; simp [sub, v3]; ring
  · exact isDist_zero ⟨_, ⟨1 / 2, by norm_num, by norm_num, rfl⟩, _, ⟨1 / 2, by norm_num, by norm_num, rfl⟩, fun i hi => by
      interval_cases i <;> simp [v3] <;> ring⟩

/-- With the tolerance for `float`, 128 times 2⁻²³, edges of length 1/20. -/
example : (0 : ℝ) < 1 / 20 ∧ (0 : ℝ) < 128 / 2 ^ 23 ∧ (1 / 20 : ℝ) ^ 4 < 128 / 2 ^ 23 ∧ 128 / 2 ^ 23 ≤ (1 / 20 : ℝ) ^ 2 / 2 := by norm_num

/-- If the second edge is a point, the result is the distance to the first point of the first edge. -/
theorem dist_ee_sqr_point_violated {eps : ℝ} (he : 0 < eps) :
    distEeSqr eps 3 (v3 (-1) 0 0) (v3 1 0 0) (v3 0 1 0) (v3 0 1 0) = 2
    ∧ IsDist 3 (Segment (v3 (-1) 0 0) (v3 1 0 0)) (Segment (v3 0 1 0) (v3 0 1 0)) 1 := by
  constructor
  · unfold distEeSqr eeNumbers eeValue
    simp only [dot3, norm3, sub, v3]; norm_num [he]
  · refine ⟨⟨_, ⟨1 / 2, by norm_num, by norm_num, rfl⟩, _, ⟨0, by norm_num, by norm_num, rfl⟩, by rw [distSq3]; simp [v3]; norm_num⟩, ?_⟩
    rintro y ⟨a, ⟨r, _, _, rfl⟩, b, ⟨q, _, _, rfl⟩, rfl⟩
    rw [distSq3]; simp only [v3]; norm_num
    nlinarith [sq_nonneg (-(1 - r) + r)]

/-- `ee_category_and_dist2`: the distance of the edges and of the parts named by the category; the edges may be points. -/
theorem ee_category_and_dist2_partial {eps : ℝ} (he : 0 < eps) {n : Nat} (ea0 ea1 eb0 eb1 : Store ℝ) :
    let u := sub ea1 ea0; let v := sub eb1 eb0; let w := sub ea0 eb0
    let D := Mat.dot n u u * Mat.dot n v v - Mat.dot n u v * Mat.dot n u v
    let x := (eeCategories eps (Mat.dot n u u) (Mat.dot n u v) (Mat.dot n v v) (Mat.dot n u w) (Mat.dot n v w)).1
    (D = 0 ∨ eps ≤ D) → (x.sN = 0 ∨ eps ≤ |x.sN|) → (x.tN = 0 ∨ eps ≤ |x.tN|) →
    let r := eeCategoryDist eps n ea0 ea1 eb0 eb1
    IsDist n (Segment ea0 ea1) (Segment eb0 eb1) r.2 ∧ IsDist n (edgePart ea0 ea1 (r.1 / 3)) (edgePart eb0 eb1 (r.1 % 3)) r.2 := by
  intro u v w D x hD hs ht r
  obtain ⟨s, t, k, au, av⟩ := eeCategories_sol (scal n u v w) he hD
  have e : r.2 = eeAt n u v w s t := eeValue_sol k hs ht he
  have lt : (eeCategories eps (Mat.dot n u u) (Mat.dot n u v) (Mat.dot n v v) (Mat.dot n u w) (Mat.dot n v w)).2.2 < 3 := by
    unfold eeCategories; simp only []; split_ifs <;> norm_num
  have c1 : r.1 / 3 = (eeCategories eps (Mat.dot n u u) (Mat.dot n u v) (Mat.dot n v v) (Mat.dot n u w) (Mat.dot n v w)).2.1 := by
    show ((eeCategories eps (Mat.dot n u u) (Mat.dot n u v) (Mat.dot n v v) (Mat.dot n u w) (Mat.dot n v w)).2.1 * 3 + (eeCategories eps (Mat.dot n u u) (Mat.dot n u v) (Mat.dot n v v) (Mat.dot n u w) (Mat.dot n v w)).2.2) / 3 = _
    omega
  have c2 : r.1 % 3 = (eeCategories eps (Mat.dot n u u) (Mat.dot n u v) (Mat.dot n v v) (Mat.dot n u w) (Mat.dot n v w)).2.2 := by
    show ((eeCategories eps (Mat.dot n u u) (Mat.dot n u v) (Mat.dot n v v) (Mat.dot n u w) (Mat.dot n v w)).2.1 * 3 + (eeCategories eps (Mat.dot n u u) (Mat.dot n u v) (Mat.dot n v v) (Mat.dot n u w) (Mat.dot n v w)).2.2) % 3 = _
    omega
  rw [e, c1, c2]
  exact ⟨ee_isDist k.os k.ot subset_rfl subset_rfl ⟨s, k.os.1, k.os.2.1, rfl⟩ ⟨t, k.ot.1, k.ot.2.1, rfl⟩,
    ee_isDist k.os k.ot (edgePart_sub _ _ _) (edgePart_sub _ _ _) (au.mem k.os.1 k.os.2.1 _ _) (av.mem k.ot.1 k.ot.2.1 _ _)⟩

/-- `dist2_ee_unclassified` and `ee_distance_type`: the distance of the edges and of the parts named by the type, if the interiors of the edges do not meet and the edges
are parallel or not nearly parallel. -/
theorem dist2_ee_unclassified_partial {tol : ℝ} (ea0 ea1 eb0 eb1 : Store ℝ) (hm : ¬Meet 3 (Interior ea0 ea1) (Interior eb0 eb1))
    (hp : Mat.l2NormSqr 3 (Mat.cross3 (sub ea1 ea0) (sub eb1 eb0)) = 0
      ∨ tol * Mat.l2NormSqr 3 (sub ea1 ea0) * Mat.l2NormSqr 3 (sub eb1 eb0) ≤ Mat.l2NormSqr 3 (Mat.cross3 (sub ea1 ea0) (sub eb1 eb0))) :
    let k := eeType tol ea0 ea1 eb0 eb1
    ∃ d, dist2EeUnclassified tol ea0 ea1 eb0 eb1 = some d ∧ IsDist 3 (Segment ea0 ea1) (Segment eb0 eb1) d
      ∧ IsDist 3 (edgePart ea0 ea1 (k / 3)) (edgePart eb0 eb1 (k % 3)) d := by
  have hS : ¬Special tol (sub ea1 ea0) (sub eb1 eb0) (sub ea0 eb0) := by
    intro hS
    by_cases hX : Mat.dot 3 (Mat.cross3 (sub ea1 ea0) (sub eb1 eb0)) (sub ea0 eb0) = 0
    · exact hm (special_meet hS hX)
    · obtain ⟨h0, h1, -, -, h4⟩ := hS
      rcases h4 with h4 | h4
      · exact hX h4
      · rw [norm_dot, norm_dot] at h4
        rcases hp with hp | hp
        · rw [cross_norm] at hp; linarith
        · linarith
  obtain ⟨s, t, os, ot, k⟩ := eeType_part hS
  exact ⟨_, (dist2EeUnclassified_formula tol ea0 ea1 eb0 eb1).trans (eeFormula_eq k),
    ee_isDist os ot subset_rfl subset_rfl ⟨s, os.1, os.2.1, rfl⟩ ⟨t, ot.1, ot.2.1, rfl⟩,
    ee_isDist os ot (edgePart_sub _ _ _) (edgePart_sub _ _ _) (k.at.1.mem os.1 os.2.1 _ _) (k.at.2.mem ot.1 ot.2.1 _ _)⟩

/-- Edges whose interiors do not meet and that are not nearly parallel. -/
example : ¬Meet 3 (Interior (v3 (-1) 0 0) (v3 1 0 0)) (Interior (v3 0 (-1) 1) (v3 0 1 1))
    ∧ 1 / 10 ^ 20 * Mat.l2NormSqr 3 (sub (v3 1 0 0) (v3 (-1) 0 0)) * Mat.l2NormSqr 3 (sub (v3 0 1 1) (v3 0 (-1) 1))
      ≤ Mat.l2NormSqr 3 (Mat.cross3 (sub (v3 1 0 0) (v3 (-1) 0 0)) (sub (v3 0 1 1) (v3 0 (-1) 1))) := by
  constructor
  · rintro ⟨a, ⟨r, _, _, rfl⟩, b, ⟨q, _, _, rfl⟩, k⟩
    have := k 2 (by norm_num)
    simp [v3] at this
  · simp only [norm3, cross_0, cross_1, cross_2, sub, v3]; norm_num

/-- Two edges that cross in their middles: the distance is zero, the function returns one. -/
theorem dist2_ee_crossing_violated (tol : ℝ) :
    dist2EeUnclassified tol (v3 (-1) 0 0) (v3 1 0 0) (v3 0 (-1) 0) (v3 0 1 0) = some 1
    ∧ IsDist 3 (Segment (v3 (-1) 0 0) (v3 1 0 0)) (Segment (v3 0 (-1) 0) (v3 0 1 0)) 0 := by
  constructor
  · have k : eeType tol (v3 (-1) 0 0) (v3 1 0 0) (v3 0 (-1) 0) (v3 0 1 0) = 5 := by
      unfold eeType; simp only [dot3, norm3, cross_0, cross_1, cross_2, sub, v3]; norm_num
    rw [dist2EeUnclassified_formula, k]
    unfold eeFormula line3 quot
    simp only [norm3, cross_0, cross_1, cross_2, sub, v3]; norm_num
  · exact isDist_zero ⟨_, ⟨1 / 2, by norm_num, by norm_num, rfl⟩, _, ⟨1 / 2, by norm_num, by norm_num, rfl⟩, fun i hi => by
      interval_cases i <;> simp [v3] <;> norm_num⟩

/-- `dist2_ee` is the distance of the lines through the edges. -/
theorem dist2_ee (ea0 ea1 eb0 eb1 : Store ℝ) (h : Mat.l2NormSqr 3 (Mat.cross3 (sub ea1 ea0) (sub eb1 eb0)) ≠ 0) :
    ∃ d, dist2Ee ea0 ea1 eb0 eb1 = some d ∧ IsDist 3 (Line ea0 ea1) (Line eb0 eb1) d := by
  rw [cross_norm] at h
  have k := scal 3 (sub ea1 ea0) (sub eb1 eb0) (sub ea0 eb0)
  generalize hDD : Mat.dot 3 (sub ea1 ea0) (sub ea1 ea0) * Mat.dot 3 (sub eb1 eb0) (sub eb1 eb0)
    - Mat.dot 3 (sub ea1 ea0) (sub eb1 eb0) * Mat.dot 3 (sub ea1 ea0) (sub eb1 eb0) = D at h
  obtain ⟨s, hs⟩ : ∃ s, s * D = Mat.dot 3 (sub ea1 ea0) (sub eb1 eb0) * Mat.dot 3 (sub eb1 eb0) (sub ea0 eb0)
    - Mat.dot 3 (sub eb1 eb0) (sub eb1 eb0) * Mat.dot 3 (sub ea1 ea0) (sub ea0 eb0) := ⟨_, div_mul_cancel₀ _ h⟩
  obtain ⟨t, ht⟩ : ∃ t, t * D = Mat.dot 3 (sub ea1 ea0) (sub ea1 ea0) * Mat.dot 3 (sub eb1 eb0) (sub ea0 eb0)
    - Mat.dot 3 (sub ea1 ea0) (sub eb1 eb0) * Mat.dot 3 (sub ea1 ea0) (sub ea0 eb0) := ⟨_, div_mul_cancel₀ _ h⟩
  have g0 : Mat.dot 3 (sub ea1 ea0) (sub ea1 ea0) * s - Mat.dot 3 (sub ea1 ea0) (sub eb1 eb0) * t + Mat.dot 3 (sub ea1 ea0) (sub ea0 eb0) = 0 := by
    refine (mul_eq_zero.1 (?_ : D * _ = 0)).resolve_left h
    linear_combination Mat.dot 3 (sub ea1 ea0) (sub ea1 ea0) * hs - Mat.dot 3 (sub ea1 ea0) (sub eb1 eb0) * ht - Mat.dot 3 (sub ea1 ea0) (sub ea0 eb0) * hDD
  have g1 : -Mat.dot 3 (sub ea1 ea0) (sub eb1 eb0) * s + Mat.dot 3 (sub eb1 eb0) (sub eb1 eb0) * t - Mat.dot 3 (sub eb1 eb0) (sub ea0 eb0) = 0 := by
    refine (mul_eq_zero.1 (?_ : D * _ = 0)).resolve_left h
    linear_combination -Mat.dot 3 (sub ea1 ea0) (sub eb1 eb0) * hs + Mat.dot 3 (sub eb1 eb0) (sub eb1 eb0) * ht + Mat.dot 3 (sub eb1 eb0) (sub ea0 eb0) * hDD
  refine ⟨_, ?_, lines_isDist g0 g1⟩
  exact eeFormula_eq (k := 8) (Or.inr (Or.inr (Or.inr (Or.inr (Or.inr (Or.inr (Or.inr (Or.inr ⟨rfl, g0, g1, by rw [hDD]; exact h⟩))))))))

/-! ## Edge and triangle -/

/-- `et_intersected` is true exactly if the edge and the triangle have a common point, unless the edge is parallel to the plane of the triangle. -/
theorem et_intersected_partial {e0 e1 t0 t1 t2 : Store ℝ} (h : Mat.dot 3 (Mat.cross3 (sub t1 t0) (sub t2 t0)) (sub e0 e1) ≠ 0) :
    etIntersected e0 e1 t0 t1 t2 = true ↔ Meet 3 (Segment e0 e1) (Triangle t0 t1 t2) := by
  refine etIntersected_iff fun k => h ?_
  rw [← k, detCols_eq, dot3, cross_0, cross_1, cross_2]; ring

example : Mat.dot 3 (Mat.cross3 (sub (v3 1 0 0) (v3 0 0 0)) (sub (v3 0 1 0) (v3 0 0 0))) (sub (v3 0 0 1) (v3 0 0 (-1))) ≠ 0 := by
  simp only [dot3, cross_0, cross_1, cross_2, sub, v3]; norm_num

/-- An edge in the plane of the triangle never intersects it according to the function, even if it lies inside. -/
theorem et_intersected_coplanar_violated :
    etIntersected (v3 (1 / 5) (1 / 5) 0) (v3 (3 / 10) (3 / 10) 0) (v3 0 0 0) (v3 1 0 0) (v3 0 1 0) = false
    ∧ Meet 3 (Segment (v3 (1 / 5) (1 / 5) 0) (v3 (3 / 10) (3 / 10) 0)) (Triangle (v3 0 0 0) (v3 1 0 0) (v3 0 1 0)) := by
  constructor
  · unfold etIntersected; simp only [dot3, detCols_eq, cross_0, cross_1, cross_2, sub, v3]; norm_num
  · refine ⟨_, ⟨0, le_refl _, by norm_num, rfl⟩, _, ⟨3 / 5, 1 / 5, 1 / 5, by norm_num, by norm_num, by norm_num, by norm_num, rfl⟩, fun i hi => ?_⟩
    interval_cases i <;> simp [v3]

/-! ## Gradients -/

/-- `dist_grad_pe` in two dimensions. -/
theorem dist_grad_pe2 (x : Store ℝ) (h : Mat.l2NormSqr 2 (sub (point 2 x 2) (point 2 x 1)) ≠ 0) :
    IsPartials 6 (fun x => (dist2Pe 2 (point 2 x 0) (point 2 x 1) (point 2 x 2)).getD 0) x (gPe2 x) := by
  simp only [dist2Pe_line, fPe2_eq]
  refine gPe2_partials x fun z => h ?_
  rw [← z]; simp only [norm2, sub, point, dPe20, dPe21, dPe22]; ring

/-- `dist_grad_pe` in three dimensions. -/
theorem dist_grad_pe3 (x : Store ℝ) (h : Mat.l2NormSqr 3 (sub (point 3 x 2) (point 3 x 1)) ≠ 0) :
    IsPartials 9 (fun x => (dist2Pe 3 (point 3 x 0) (point 3 x 1) (point 3 x 2)).getD 0) x (gPe3 x) := by
  simp only [dist2Pe_line, fPe3_eq]
  refine gPe3_partials x fun z => h ?_
  rw [← z]; simp only [norm3, sub, point, dPe30, dPe31, dPe32]; ring

/-- `dist_grad_ee`. -/
theorem dist_grad_ee (x : Store ℝ) (h : cn2 (point 3 x 0) (point 3 x 1) (point 3 x 2) (point 3 x 3) ≠ 0) :
    IsPartials 12 (fun x => (dist2Ee (point 3 x 0) (point 3 x 1) (point 3 x 2) (point 3 x 3)).getD 0) x (gEe x) := by
  simp only [fEe_eq]
  refine gEe_partials x fun z => h ?_
  rw [← z]; simp only [cn2, norm3, cross_0, cross_1, cross_2, sub, point, dEe0, dEe1, dEe2]; ring

/-- `dist_grad_pt`. -/
theorem dist_grad_pt (x : Store ℝ) (h : Tri 3 (point 3 x 1) (point 3 x 2) (point 3 x 3)) :
    IsPartials 12 (fun x => (dist2Pt (point 3 x 0) (point 3 x 1) (point 3 x 2) (point 3 x 3)).getD 0) x (gPt x) := by
  simp only [fPt_eq]
  refine gPt_partials x fun z => ?_
  have := h.pos
  rw [← cross_norm] at this
  refine this.ne' ?_
  rw [← z]; simp only [norm3, cross_0, cross_1, cross_2, sub, point, dPt0, dPt1, dPt2]; ring

/-- `cn2_grad_ee` and `mollifier_grad_ee`; also where the mollifier becomes constant. -/
theorem mollifier_grad_ee (x : Store ℝ) : IsPartials 12 (fun x => cn2 (point 3 x 0) (point 3 x 1) (point 3 x 2) (point 3 x 3)) x (gCn x)
    ∧ ∀ eps > 0, IsPartials 12 (fun x => mollifier (point 3 x 0) (point 3 x 1) (point 3 x 2) (point 3 x 3) eps) x (mollifierGrad x eps) :=
  ⟨cn_partials x, fun _ he => mollifier_partials x he⟩

/-- The mollifier is between 0 and 1, zero exactly for parallel edges, one from the threshold on. -/
theorem mollifier_range (ea0 ea1 eb0 eb1 : Store ℝ) {eps : ℝ} (he : 0 < eps) :
    0 ≤ mollifier ea0 ea1 eb0 eb1 eps ∧ mollifier ea0 ea1 eb0 eb1 eps ≤ 1
    ∧ (mollifier ea0 ea1 eb0 eb1 eps = 0 ↔ cn2 ea0 ea1 eb0 eb1 = 0) ∧ (mollifier ea0 ea1 eb0 eb1 eps = 1 ↔ eps ≤ cn2 ea0 ea1 eb0 eb1) := by
  have c0 : 0 ≤ cn2 ea0 ea1 eb0 eb1 := norm_nonneg _ _
  unfold mollifier eem
  generalize cn2 ea0 ea1 eb0 eb1 = c at *
  simp only []
  split_ifs with h
  · have q0 : 0 ≤ c / eps := div_nonneg c0 he.le
    have q1 : c / eps < 1 := (div_lt_one he).2 h
    have qz : c / eps = 0 ↔ c = 0 := by rw [div_eq_zero_iff]; simp [he.ne']
    generalize c / eps = q at *
    refine ⟨mul_nonneg (by linarith) q0, by nlinarith [sq_nonneg (q - 1)], ?_, ?_⟩
    · rw [← qz, mul_eq_zero]
      exact ⟨fun k => k.resolve_left (by linarith), Or.inr⟩
    · exact ⟨fun k => absurd k (by nlinarith [sq_nonneg (q - 1), mul_pos (sub_pos.2 q1) (sub_pos.2 q1)]), fun k => absurd h (not_lt.2 k)⟩
  · exact ⟨by norm_num, le_refl _, ⟨fun k => absurd k one_ne_zero, fun k => absurd (k ▸ he) h⟩, ⟨fun _ => not_lt.1 h, fun _ => rfl⟩⟩

/-! ## Barrier -/

/-- The gradient and the second derivative of the barrier are its derivatives, also at the threshold. -/
theorem barrier_derivatives (kappa : ℝ) {d2 dHat2 : ℝ} (h : 0 < d2) (hd : 0 < dHat2) :
    HasDerivAt (fun y => barrier y dHat2 kappa) (barrierGradient d2 dHat2 kappa) d2
    ∧ HasDerivAt (fun y => barrierGradient y dHat2 kappa) (barrierHessian d2 dHat2 kappa) d2 :=
  ⟨barrier_deriv kappa h hd, barrierGradient_deriv kappa h hd⟩

/-- The barrier is not negative, falls with the distance, is convex, vanishes from the threshold on and grows without bound near distance zero. -/
theorem barrier_shape {kappa dHat2 : ℝ} (hk : 0 < kappa) (hd : 0 < dHat2) :
    (∀ d2 > 0, 0 ≤ barrier d2 dHat2 kappa ∧ barrierGradient d2 dHat2 kappa ≤ 0 ∧ 0 ≤ barrierHessian d2 dHat2 kappa)
    ∧ (∀ d2 ≥ dHat2, barrier d2 dHat2 kappa = 0)
    ∧ Filter.Tendsto (fun d2 => barrier d2 dHat2 kappa) (nhdsWithin 0 (Set.Ioi 0)) Filter.atTop :=
  ⟨fun _ h => barrier_signs h hk.le, fun _ h => if_pos h, barrier_tendsto hd hk⟩

/-- Below the threshold the barrier is positive. -/
theorem barrier_pos {kappa dHat2 d2 : ℝ} (hk : 0 < kappa) (h : 0 < d2) (hd : d2 < dHat2) : 0 < barrier d2 dHat2 kappa := by
  unfold barrier; rw [if_neg (not_le.2 hd)]
  have l : Real.log (d2 / dHat2) < 0 := Real.log_neg (div_pos h (h.trans hd)) ((div_lt_one (h.trans hd)).2 hd)
  have : -kappa * (d2 - dHat2) * (d2 - dHat2) * Real.log (d2 / dHat2) = kappa * (d2 - dHat2) ^ 2 * -Real.log (d2 / dHat2) := by ring
  rw [this]
  exact mul_pos (mul_pos hk (sq_pos_of_neg (by linarith))) (by linarith)

end Verif.Dist
