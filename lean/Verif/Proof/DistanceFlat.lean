import Verif.Proof.DistanceEdge

/-!
Helper lemmas: lines and planes, flat triangles, parts of edges.
-/
namespace Verif.Dist

open Verif.Mat (Store)

/-! ### Lines and planes -/

theorem line_isDist (n : Nat) (p e0 e1 : Store ℝ) (h : Mat.l2NormSqr n (sub e1 e0) ≠ 0) :
    IsDist n {p} (Line e0 e1) ((distSq n p e0 * Mat.l2NormSqr n (sub e1 e0) - Mat.dot n (sub e1 e0) (sub p e0) ^ 2) / Mat.l2NormSqr n (sub e1 e0)) := by
  rw [← seg_foot n p e0 e1 h]
  refine ⟨⟨p, rfl, _, ⟨_, rfl⟩, rfl⟩, ?_⟩
  rintro y ⟨a, ha, b, ⟨r, rfl⟩, rfl⟩
  rw [Set.mem_singleton_iff.1 ha, seg_poly, seg_poly]
  have hp := norm_pos h
  generalize Mat.l2NormSqr n (sub e1 e0) = N at *
  generalize Mat.dot n (sub e1 e0) (sub p e0) = g at *
  have e : g = g / N * N := (div_mul_cancel₀ _ h).symm
  generalize g / N = q at *
  subst e
  nlinarith [mul_nonneg hp.le (sq_nonneg (r - q))]

theorem plane_isDist {n : Nat} {p t0 t1 t2 : Store ℝ} {s t : ℝ}
    (g0 : Mat.dot n (sub t1 t0) (sub t1 t0) * s + Mat.dot n (sub t1 t0) (sub t2 t0) * t + Mat.dot n (sub t0 p) (sub t1 t0) = 0)
    (g1 : Mat.dot n (sub t1 t0) (sub t2 t0) * s + Mat.dot n (sub t2 t0) (sub t2 t0) * t + Mat.dot n (sub t0 p) (sub t2 t0) = 0) :
    IsDist n {p} (Plane t0 t1 t2) (hit n p t0 t1 t2 s t) := by
  refine ⟨⟨p, rfl, _, ⟨1 - s - t, s, t, by ring, rfl⟩, hit_distSq _ _ _ _ _ _ _⟩, ?_⟩
  rintro y ⟨a, ha, b, ⟨α, β, γ, hs, rfl⟩, rfl⟩
  obtain rfl : α = 1 - β - γ := by linarith
  rw [Set.mem_singleton_iff.1 ha, ← hit_distSq, hit_poly, hit_poly]
  have q := quad_nonneg n (sub t1 t0) (sub t2 t0) (β - s) (γ - t)
  linear_combination q - 2 * (β - s) * g0 - 2 * (γ - t) * g1

theorem lines_isDist {n : Nat} {ea0 ea1 eb0 eb1 : Store ℝ} {s t : ℝ}
    (g0 : Mat.dot n (sub ea1 ea0) (sub ea1 ea0) * s - Mat.dot n (sub ea1 ea0) (sub eb1 eb0) * t + Mat.dot n (sub ea1 ea0) (sub ea0 eb0) = 0)
    (g1 : -Mat.dot n (sub ea1 ea0) (sub eb1 eb0) * s + Mat.dot n (sub eb1 eb0) (sub eb1 eb0) * t - Mat.dot n (sub eb1 eb0) (sub ea0 eb0) = 0) :
    IsDist n (Line ea0 ea1) (Line eb0 eb1) (eeAt n (sub ea1 ea0) (sub eb1 eb0) (sub ea0 eb0) s t) := by
  refine ⟨⟨_, ⟨s, rfl⟩, _, ⟨t, rfl⟩, eeAt_distSq _ _ _ _ _ _ _⟩, ?_⟩
  rintro y ⟨a, ⟨r, rfl⟩, b, ⟨q, rfl⟩, rfl⟩
  rw [← eeAt_distSq, eeAt_poly, eeAt_poly]
  have k := quad2 (scal n (sub ea1 ea0) (sub eb1 eb0) (sub ea0 eb0)) (r - s) (q - t)
  linear_combination k - 2 * (r - s) * g0 - 2 * (q - t) * g1

/-! ### Flat triangles -/

theorem flat_params {n : Nat} {p t0 t1 t2 : Store ℝ}
    (h : Mat.dot n (sub t1 t0) (sub t1 t0) * Mat.dot n (sub t2 t0) (sub t2 t0) - Mat.dot n (sub t1 t0) (sub t2 t0) * Mat.dot n (sub t1 t0) (sub t2 t0) = 0) :
    distPtSqr n p t0 t1 t2 = none ∧ ptCategoryDist n p t0 t1 t2 = none := by
  have k1 := (scal n (sub t1 t0) (sub t2 t0) (sub t0 p)).par h
  have k2 := (scal n (sub t2 t0) (sub t1 t0) (sub t0 p)).par (by rw [dot_comm n (sub t2 t0) (sub t1 t0)]; linarith)
  rw [dot_comm n (sub t2 t0) (sub t1 t0)] at k2
  rw [dot_comm n _ (sub t0 p), dot_comm n _ (sub t0 p)] at k1 k2
  have e : ptParams (Mat.dot n (sub t1 t0) (sub t1 t0)) (Mat.dot n (sub t1 t0) (sub t2 t0)) (Mat.dot n (sub t2 t0) (sub t2 t0))
      (Mat.dot n (sub t0 p) (sub t1 t0)) (Mat.dot n (sub t0 p) (sub t2 t0)) = none := by
    unfold ptParams; simp [h, k1, k2]
  refine ⟨by unfold distPtSqr; simp [e], ?_⟩
  rw [← ptCategory_params] at e
  unfold ptCategoryDist; simp [Option.map_eq_none_iff.1 e]

theorem flat_formula {p t0 t1 t2 : Store ℝ}
    (h : Mat.dot 3 (sub t1 t0) (sub t1 t0) * Mat.dot 3 (sub t2 t0) (sub t2 t0) - Mat.dot 3 (sub t1 t0) (sub t2 t0) * Mat.dot 3 (sub t1 t0) (sub t2 t0) = 0) :
    dist2PtUnclassified p t0 t1 t2 = none := by
  rw [← cross_norm] at h
  have z : ∀ i < 3, Mat.cross3 (sub t1 t0) (sub t2 t0) i = 0 := by
    rw [norm3] at h
    generalize Mat.cross3 (sub t1 t0) (sub t2 t0) = n at *
    intro i hi
    interval_cases i <;> nlinarith [mul_self_nonneg (n 0), mul_self_nonneg (n 1), mul_self_nonneg (n 2)]
  have q : ∀ a b : Store ℝ, edgeParam a b (Mat.cross3 (sub t1 t0) (sub t2 t0)) = (0, 0) := by
    intro a b
    unfold edgeParam
    simp [detCols_eq, z]
  have k : ptType p t0 t1 t2 = 6 := by unfold ptType; simp [q, not_le.2 (zero_lt_one (α := ℝ))]
  rw [dist2PtUnclassified_formula, k]
  unfold ptFormula dist2Pt quot; simp [h]

/-! ### Parts of edges -/

theorem EPart.at {a b c d e : ℝ} {k : Nat} {s t : ℝ} (h : EPart a b c d e k s t) : At (k / 3) s ∧ At (k % 3) t := by
  rcases h with ⟨rfl, rfl, rfl⟩ | ⟨rfl, rfl, rfl⟩ | ⟨rfl, rfl, rfl⟩ | ⟨rfl, rfl, rfl⟩ | ⟨rfl, rfl, _⟩ | ⟨rfl, rfl, _⟩ | ⟨rfl, rfl, _⟩ | ⟨rfl, rfl, _⟩ | ⟨rfl, _⟩
  all_goals simp [At]

theorem eeNumbers_eps {a b c d e eps eps' : ℝ} (h : a * c - b * b < eps ↔ a * c - b * b < eps') : eeNumbers eps a b c d e = eeNumbers eps' a b c d e := by
  unfold eeNumbers; simp only [h]

theorem dist2Pe_line (p e0 e1 : Store ℝ) : dist2Pe 2 p e0 e1 = line2 p e0 e1 ∧ dist2Pe 3 p e0 e1 = line3 p e0 e1 := by
  unfold dist2Pe; simp

theorem distSq_nonneg (n : Nat) (a b : Store ℝ) : 0 ≤ distSq n a b := Finset.sum_nonneg fun _ _ => sq_nonneg _

theorem isDist_zero {n : Nat} {A B : Set (Store ℝ)} (h : Meet n A B) : IsDist n A B 0 := by
  obtain ⟨a, ha, b, hb, e⟩ := h
  refine ⟨⟨a, ha, b, hb, ?_⟩, ?_⟩
  · unfold distSq; symm; exact Finset.sum_eq_zero fun i _ => by rw [e i i.2]; ring
  · rintro y ⟨a, _, b, _, rfl⟩; exact distSq_nonneg n a b

end Verif.Dist
