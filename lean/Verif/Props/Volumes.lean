import Verif.Proof.Volumes
import Mathlib.Tactic.NormNum

/-!
# Tests of bounding volumes and rays

A test says yes exactly when the volumes have a common point; the broad phases never miss a contact; a ray test says yes exactly when the ray meets the shape, apart from the cases of the violations.
-/
namespace Verif.Volumes
open Verif.Shapes

variable {n : ℕ}

/-! ## Overlaps -/

theorem overlaps_boxes (a b : Cuboid n) (ha : ∀ i, a.min i ≤ a.max i) (hb : ∀ i, b.min i ≤ b.max i) :
    overlapsBB a b = true ↔ ∃ x, x ∈ a.set ∧ x ∈ b.set := by
  rw [overlapsBB_iff]
  constructor
  · intro h
    refine ⟨fun i => max (a.min i) (b.min i), fun i => ⟨le_max_left _ _, max_le (ha i) (h i).1⟩, fun i => ⟨le_max_right _ _, max_le (h i).2 (hb i)⟩⟩
  · rintro ⟨x, h1, h2⟩ i
    exact ⟨(h2 i).1.trans (h1 i).2, (h1 i).1.trans (h2 i).2⟩

theorem overlaps_point (p : V n) (b : Cuboid n) : overlapsPB p b = true ↔ p ∈ b.set := overlapsPB_iff p b

theorem overlaps_spheres (a b : Sphere n) (ha : 0 ≤ a.radius) (hb : 0 ≤ b.radius) :
    overlapsSS a b = true ↔ ∃ x, x ∈ a.set ∧ x ∈ b.set := by
  have h1 : overlapsSS a b = true ↔ len (a.center - b.center) ≤ a.radius + b.radius := by
    simp only [overlapsSS, decide_eq_true_eq]
    rw [len, Real.sqrt_le_left (by linarith), sq]
    rfl
  rw [h1]
  constructor
  · intro h
    by_cases h0 : a.radius + b.radius = 0
    · have hc : a.center - b.center = 0 := len_eq_zero (le_antisymm (h0 ▸ h) (len_nonneg _))
      refine ⟨a.center, ?_, ?_⟩
      · change len _ ≤ _; rw [sub_self, len_zero]; exact ha
      · change len _ ≤ _; rw [hc, len_zero]; exact hb
    · have hp : 0 < a.radius + b.radius := lt_of_le_of_ne (by linarith) (Ne.symm h0)
      refine ⟨a.center - (a.radius / (a.radius + b.radius)) • (a.center - b.center), ?_, ?_⟩
      · change len _ ≤ _
        rw [sub_sub_cancel_left, len_neg, len_smul, abs_of_nonneg (by positivity), div_mul_eq_mul_div, div_le_iff₀ hp]
        exact mul_le_mul_of_nonneg_left h ha
      · change len _ ≤ _
        have : a.center - (a.radius / (a.radius + b.radius)) • (a.center - b.center) - b.center = (b.radius / (a.radius + b.radius)) • (a.center - b.center) := by
          have e : b.radius / (a.radius + b.radius) = 1 - a.radius / (a.radius + b.radius) := by field_simp; ring
          rw [e, sub_smul, one_smul]; abel
        rw [this, len_smul, abs_of_nonneg (by positivity), div_mul_eq_mul_div, div_le_iff₀ hp]
        exact mul_le_mul_of_nonneg_left h hb
  · rintro ⟨x, h1, h2⟩
    have h3 : len (x - a.center) ≤ a.radius := h1
    have h4 : len (x - b.center) ≤ b.radius := h2
    have h5 := len_triangle (a.center - x) (x - b.center)
    rw [sub_add_sub_cancel, len_sub_comm a.center x] at h5
    linarith

theorem overlaps_point_sphere (p : V n) (b : Sphere n) (hb : 0 ≤ b.radius) : overlapsPS p b = true ↔ p ∈ b.set := by
  simp only [overlapsPS, decide_eq_true_eq]
  change _ ↔ len (p - b.center) ≤ b.radius
  rw [len, Real.sqrt_le_left hb, sq]
  rfl

/-- With a negative radius the answer is wrong. -/
theorem overlaps_negative_violated : ∃ (p : V 1) (b : Sphere 1), overlapsPS p b = true ∧ p ∉ b.set := by
  refine ⟨0, ⟨0, -1⟩, by simp [overlapsPS], fun h => ?_⟩
  have h' : len ((0 : V 1) - 0) ≤ -1 := h
  have := len_nonneg ((0 : V 1) - 0)
  linarith

/-! ## Boxes around points -/

/-- The merged box is the smallest one around the box and the point. -/
theorem merge_smallest (b : Cuboid n) (p : V n) (h : ∀ i, b.min i ≤ b.max i) : Bounding (b.set ∪ {p}) ((merge b p).min, (merge b p).max) := by
  constructor
  · rintro x (hx | rfl) i
    · exact ⟨(min_le_left _ _).trans (hx i).1, (hx i).2.trans (le_max_left _ _)⟩
    · exact ⟨min_le_right _ _, le_max_right _ _⟩
  · intro c hc y hy i
    have h1 := hc (Or.inl (show b.min ∈ b.set from fun i => ⟨le_rfl, h i⟩)) i
    have h2 := hc (Or.inl (show b.max ∈ b.set from fun i => ⟨h i, le_rfl⟩)) i
    have h3 := hc (Or.inr (Set.mem_singleton p)) i
    exact ⟨(le_min h1.1 h3.1).trans (hy i).1, (hy i).2.trans (max_le h2.2 h3.2)⟩

/-- The box of two points is the smallest one around them. -/
theorem bounding_box (a b : V n) : Bounding {a, b} ((boundingBox a b).min, (boundingBox a b).max) := by
  rw [boundingBox_eq]
  constructor
  · rintro x (rfl | rfl) i
    · exact ⟨min_le_left _ _, le_max_left _ _⟩
    · exact ⟨min_le_right _ _, le_max_right _ _⟩
  · intro c hc y hy i
    have h1 := hc (Or.inl rfl) i
    have h2 := hc (Or.inr rfl) i
    exact ⟨(le_min h1.1 h2.1).trans (hy i).1, (hy i).2.trans (max_le h1.2 h2.2)⟩

/-! ## Broad phases -/

/-- Exactly the closeness of the boxes around the ends of the paths. -/
theorem pt_exact (p t0 t1 t2 dp dt0 dt1 dt2 : V n) {dist : ℝ} (toc : ℝ) (hd : 0 ≤ dist) :
    ptBroadphase p t0 t1 t2 dp dt0 dt1 dt2 dist toc = true ↔
      Near (Hull [p, at' p dp toc]) (Hull [t0, at' t0 dt0 toc, t1, at' t1 dt1 toc, t2, at' t2 dt2 toc]) dist := by
  simp only [ptBroadphase, boundingBox_eq, merge]
  rw [near_iff (fun i => min_le_max) (fun i => by simp) hd]
  have h1 : Cuboid.set ⟨fun i => min (p i) ((p + toc • dp) i), fun i => max (p i) ((p + toc • dp) i)⟩ = Hull [p, at' p dp toc] := by
    ext x
    refine forall_congr' fun i => ?_
    simp [at']
  rw [h1]
  refine exists_congr fun x => and_congr_right fun _ => exists_congr fun y => and_congr_left fun _ => forall_congr' fun i => ?_
  simp [at', or_assoc]

theorem ee_exact (ea0 ea1 eb0 eb1 dea0 dea1 deb0 deb1 : V n) {dist : ℝ} (toc : ℝ) (hd : 0 ≤ dist) :
    eeBroadphase ea0 ea1 eb0 eb1 dea0 dea1 deb0 deb1 dist toc = true ↔
      Near (Hull [ea0, at' ea0 dea0 toc, ea1, at' ea1 dea1 toc]) (Hull [eb0, at' eb0 deb0 toc, eb1, at' eb1 deb1 toc]) dist := by
  simp only [eeBroadphase, boundingBox_eq, merge]
  rw [near_iff (fun i => by simp) (fun i => by simp) hd]
  have h1 : Cuboid.set ⟨fun i => min (min (min (ea0 i) ((ea0 + toc • dea0) i)) (ea1 i)) ((ea1 + toc • dea1) i),
      fun i => max (max (max (ea0 i) ((ea0 + toc • dea0) i)) (ea1 i)) ((ea1 + toc • dea1) i)⟩ = Hull [ea0, at' ea0 dea0 toc, ea1, at' ea1 dea1 toc] := by
    ext x
    refine forall_congr' fun i => ?_
    simp [at', or_assoc]
  rw [h1]
  refine exists_congr fun x => and_congr_right fun _ => exists_congr fun y => and_congr_left fun _ => forall_congr' fun i => ?_
  simp [at', or_assoc]

/-- No contact of a point and a triangle within the time is missed. -/
theorem pt_conservative (p t0 t1 t2 dp dt0 dt1 dt2 : V n) {dist toc t : ℝ} (h0 : 0 ≤ t) (h1 : t ≤ toc) (y : V n)
    (hy : y ∈ tri (at' t0 dt0 t) (at' t1 dt1 t) (at' t2 dt2 t)) (hl : len (at' p dp t - y) ≤ dist) :
    ptBroadphase p t0 t1 t2 dp dt0 dt1 dt2 dist toc = true := by
  rw [pt_exact _ _ _ _ _ _ _ _ _ ((len_nonneg _).trans hl)]
  refine ⟨at' p dp t, fun i => ?_, y, fun i => ?_, fun i => (abs_le_len _ i).trans hl⟩
  · have := between (p := p i) (d := dp i) h0 h1
    simpa [at'] using this
  · obtain ⟨u, v, w, hu, hv, hw, hs, rfl⟩ := hy
    have b0 := between (p := t0 i) (d := dt0 i) h0 h1
    have b1 := between (p := t1 i) (d := dt1 i) h0 h1
    have b2 := between (p := t2 i) (d := dt2 i) h0 h1
    set lo := min (min (min (t0 i) (t0 i + toc * dt0 i)) (min (t1 i) (t1 i + toc * dt1 i))) (min (t2 i) (t2 i + toc * dt2 i)) with hlo
    set hi := max (max (max (t0 i) (t0 i + toc * dt0 i)) (max (t1 i) (t1 i + toc * dt1 i))) (max (t2 i) (t2 i + toc * dt2 i)) with hhi
    have l0 : lo ≤ t0 i + t * dt0 i := ((min_le_left _ _).trans (min_le_left _ _)).trans b0.1
    have l1 : lo ≤ t1 i + t * dt1 i := ((min_le_left _ _).trans (min_le_right _ _)).trans b1.1
    have l2 : lo ≤ t2 i + t * dt2 i := (min_le_right _ _).trans b2.1
    have g0 : t0 i + t * dt0 i ≤ hi := b0.2.trans ((le_max_left _ _).trans (le_max_left _ _))
    have g1 : t1 i + t * dt1 i ≤ hi := b1.2.trans ((le_max_right _ _).trans (le_max_left _ _))
    have g2 : t2 i + t * dt2 i ≤ hi := b2.2.trans (le_max_right _ _)
    have e : (u • at' t0 dt0 t + v • at' t1 dt1 t + w • at' t2 dt2 t) i = u * (t0 i + t * dt0 i) + v * (t1 i + t * dt1 i) + w * (t2 i + t * dt2 i) := by
      simp only [at', Pi.add_apply, Pi.smul_apply, smul_eq_mul]
    rw [e]
    have hw' : w = 1 - u - v := by linarith
    have a : lo ≤ u * (t0 i + t * dt0 i) + v * (t1 i + t * dt1 i) + w * (t2 i + t * dt2 i) := by
      have := mul_le_mul_of_nonneg_left l0 hu
      have := mul_le_mul_of_nonneg_left l1 hv
      have := mul_le_mul_of_nonneg_left l2 hw
      have : lo = u * lo + v * lo + w * lo := by rw [hw']; ring
      linarith
    have b : u * (t0 i + t * dt0 i) + v * (t1 i + t * dt1 i) + w * (t2 i + t * dt2 i) ≤ hi := by
      have := mul_le_mul_of_nonneg_left g0 hu
      have := mul_le_mul_of_nonneg_left g1 hv
      have := mul_le_mul_of_nonneg_left g2 hw
      have : hi = u * hi + v * hi + w * hi := by rw [hw']; ring
      linarith
    rw [hlo] at a
    rw [hhi] at b
    simp only [min_le_iff, le_max_iff] at a b
    simpa [at', or_assoc] using And.intro a b

/-- No contact of two edges within the time is missed. -/
theorem ee_conservative (ea0 ea1 eb0 eb1 dea0 dea1 deb0 deb1 : V n) {dist toc t : ℝ} (h0 : 0 ≤ t) (h1 : t ≤ toc) (x y : V n)
    (hx : x ∈ seg (at' ea0 dea0 t) (at' ea1 dea1 t)) (hy : y ∈ seg (at' eb0 deb0 t) (at' eb1 deb1 t)) (hl : len (x - y) ≤ dist) :
    eeBroadphase ea0 ea1 eb0 eb1 dea0 dea1 deb0 deb1 dist toc = true := by
  have key : ∀ (a b da db x : V n), x ∈ seg (at' a da t) (at' b db t) → x ∈ Hull [a, at' a da toc, b, at' b db toc] := by
    intro a b da db x hx i
    obtain ⟨u, v, hu, hv, hs, rfl⟩ := hx
    have b0 := between (p := a i) (d := da i) h0 h1
    have b1 := between (p := b i) (d := db i) h0 h1
    set lo := min (min (a i) (a i + toc * da i)) (min (b i) (b i + toc * db i)) with hlo
    set hi := max (max (a i) (a i + toc * da i)) (max (b i) (b i + toc * db i)) with hhi
    have l0 : lo ≤ a i + t * da i := (min_le_left _ _).trans b0.1
    have l1 : lo ≤ b i + t * db i := (min_le_right _ _).trans b1.1
    have g0 : a i + t * da i ≤ hi := b0.2.trans (le_max_left _ _)
    have g1 : b i + t * db i ≤ hi := b1.2.trans (le_max_right _ _)
    have e : (u • at' a da t + v • at' b db t) i = u * (a i + t * da i) + v * (b i + t * db i) := by
      simp only [at', Pi.add_apply, Pi.smul_apply, smul_eq_mul]
    rw [e]
    have hv' : v = 1 - u := by linarith
    have a' : lo ≤ u * (a i + t * da i) + v * (b i + t * db i) := by
      have := mul_le_mul_of_nonneg_left l0 hu
      have := mul_le_mul_of_nonneg_left l1 hv
      have : lo = u * lo + v * lo := by rw [hv']; ring
      linarith
    have b' : u * (a i + t * da i) + v * (b i + t * db i) ≤ hi := by
      have := mul_le_mul_of_nonneg_left g0 hu
      have := mul_le_mul_of_nonneg_left g1 hv
      have : hi = u * hi + v * hi := by rw [hv']; ring
      linarith
    rw [hlo] at a'
    rw [hhi] at b'
    simp only [min_le_iff, le_max_iff] at a' b'
    simpa [at', or_assoc] using And.intro a' b'
  rw [ee_exact _ _ _ _ _ _ _ _ _ ((len_nonneg _).trans hl)]
  exact ⟨x, key _ _ _ _ x hx, y, key _ _ _ _ y hy, fun i => (abs_le_len _ i).trans hl⟩

/-! ## Ray and triangle -/

/-- A parameter is returned exactly when the line is not parallel to the plane and its point there has coordinates in the triangle up to the tolerance. -/
theorem ray_tri_iff {eps : ℝ} (he : 0 ≤ eps) (ro rd v0 v1 v2 : V 3) (r : ℝ) : rayTri eps ro rd v0 v1 v2 = some r ↔
    |dot (cross (v1 - v0) (v2 - v0)) rd| > eps ∧ ∃ s t : ℝ, ro + r • rd = v0 + s • (v1 - v0) + t • (v2 - v0) ∧ -eps ≤ s ∧ s ≤ 1 + eps ∧ -eps ≤ t ∧ s + t ≤ 1 + eps * 2 := by
  set u := v1 - v0 with hu
  set v := v2 - v0 with hv
  have hdef : rayTri eps ro rd v0 v1 v2 = if |dot (cross u v) rd| > eps then
      (let r := dot (cross u v) (v0 - ro) / dot (cross u v) rd
       let w := ro + r • rd - v0
       let s := (dot u v * dot w v - dot v v * dot w u) * (1 / (dot u v * dot u v - dot u u * dot v v))
       let t := (dot u v * dot w u - dot u u * dot w v) * (1 / (dot u v * dot u v - dot u u * dot v v))
       if -eps ≤ s ∧ s ≤ 1 + eps ∧ -eps ≤ t ∧ s + t ≤ 1 + eps * 2 then some r else none) else none := rfl
  rw [hdef]
  by_cases hb : |dot (cross u v) rd| > eps
  swap
  · rw [if_neg hb]
    exact ⟨fun h => by simp at h, fun h => absurd h.1 hb⟩
  rw [if_pos hb]
  have hb0 : dot (cross u v) rd ≠ 0 := fun h => by rw [h, abs_zero] at hb; linarith
  have hg : dot u v * dot u v - dot u u * dot v v ≠ 0 := by
    rw [gram_eq]
    intro h
    have hz : ∀ i, cross u v i = 0 := by
      have h' : cross u v 0 * cross u v 0 + cross u v 1 * cross u v 1 + cross u v 2 * cross u v 2 = 0 := neg_eq_zero.1 h
      have q0 := mul_self_nonneg (cross u v 0)
      have q1 := mul_self_nonneg (cross u v 1)
      have q2 := mul_self_nonneg (cross u v 2)
      intro i
      fin_cases i
      · exact mul_self_eq_zero.1 (by simp only [Fin.zero_eta]; linarith)
      · exact mul_self_eq_zero.1 (by simp only [Fin.mk_one]; linarith)
      · exact mul_self_eq_zero.1 (by simp only [Fin.reduceFinMk]; linarith)
    exact hb0 (by simp only [dot, hz]; ring)
  -- coordinates of a point of the plane
  have coord : ∀ s t : ℝ, ∀ w : V 3, w = s • u + t • v →
      (dot u v * dot w v - dot v v * dot w u) * (1 / (dot u v * dot u v - dot u u * dot v v)) = s ∧
      (dot u v * dot w u - dot u u * dot w v) * (1 / (dot u v * dot u v - dot u u * dot v v)) = t := by
    rintro s t w rfl
    rw [mul_one_div, mul_one_div, div_eq_iff hg, div_eq_iff hg]
    constructor <;> simp [dot] <;> ring
  set r0 := dot (cross u v) (v0 - ro) / dot (cross u v) rd with hr0
  have inplane : dot (cross u v) (ro + r0 • rd - v0) = 0 := by
    have h1 : dot (cross u v) (ro + r0 • rd - v0) = r0 * dot (cross u v) rd - dot (cross u v) (v0 - ro) := by
      simp [dot]; ring
    rw [h1, hr0, div_mul_cancel₀ _ hb0, sub_self]
  have onplane : ∀ r s t : ℝ, ro + r • rd = v0 + s • u + t • v → r = r0 := by
    intro r s t h
    rw [hr0, eq_div_iff hb0]
    have h0 := congrFun h 0
    have h1 := congrFun h 1
    have h2 := congrFun h 2
    simp only [Pi.add_apply, Pi.smul_apply, smul_eq_mul] at h0 h1 h2
    simp only [dot, cross, Pi.sub_apply, Matrix.cons_val]
    linear_combination (u 1 * v 2 - u 2 * v 1) * h0 + (u 2 * v 0 - u 0 * v 2) * h1 + (u 0 * v 1 - u 1 * v 0) * h2
  constructor
  · intro h
    simp only at h
    split_ifs at h with hc
    · obtain rfl := Option.some.inj h
      refine ⟨hb, _, _, ?_, hc⟩
      funext i
      have h3 := span_eq inplane i
      simp only [Pi.add_apply, Pi.smul_apply, smul_eq_mul]
      have h4 : ro i + r0 * rd i - v0 i = (ro + r0 • rd - v0) i := by simp
      rw [mul_one_div, mul_one_div]
      have h5 : (ro + r0 • rd - v0) i = (dot u v * dot (ro + r0 • rd - v0) v - dot v v * dot (ro + r0 • rd - v0) u) / (dot u v * dot u v - dot u u * dot v v) * u i
          + (dot u v * dot (ro + r0 • rd - v0) u - dot u u * dot (ro + r0 • rd - v0) v) / (dot u v * dot u v - dot u u * dot v v) * v i := by
        rw [div_mul_eq_mul_div, div_mul_eq_mul_div, ← add_div, eq_div_iff hg, ← h3]; ring
      linarith
  · rintro ⟨_, s, t, h, hc⟩
    obtain rfl := onplane r s t h
    obtain ⟨c1, c2⟩ := coord s t (ro + r0 • rd - v0) (by rw [h]; abel)
    simp only
    rw [c1, c2, if_pos hc]

/-- In exact arithmetic without tolerance the point is in the triangle, and every crossing of a line that is not parallel is found. -/
theorem ray_tri_exact (ro rd v0 v1 v2 : V 3) (r : ℝ) (h : dot (cross (v1 - v0) (v2 - v0)) rd ≠ 0) :
    rayTri 0 ro rd v0 v1 v2 = some r ↔ ro + r • rd ∈ tri v0 v1 v2 := by
  rw [ray_tri_iff le_rfl]
  constructor
  · rintro ⟨_, s, t, he, h1, h2, h3, h4⟩
    refine ⟨1 - s - t, s, t, by linarith, by linarith, by linarith, by ring, ?_⟩
    rw [he]
    funext i
    simp only [Pi.add_apply, Pi.smul_apply, Pi.sub_apply, smul_eq_mul]
    ring
  · rintro ⟨a, b, c, ha, hb, hc, hs, he⟩
    refine ⟨abs_pos.2 h, b, c, ?_, by linarith, by linarith, by linarith, by linarith⟩
    rw [he]
    funext i
    simp only [Pi.add_apply, Pi.smul_apply, Pi.sub_apply, smul_eq_mul]
    obtain rfl : a = 1 - b - c := by linarith
    ring

/-- The result may be behind the origin of the ray. -/
theorem ray_tri_behind_violated {eps : ℝ} (he : 0 ≤ eps) (h1 : eps < 1) : ∃ ro rd v0 v1 v2 : V 3, rayTri eps ro rd v0 v1 v2 = some (-1) := by
  refine ⟨![0, 0, 1], ![0, 0, 1], ![0, 0, 0], ![1, 0, 0], ![0, 1, 0], (ray_tri_iff he _ _ _ _ _ _).2 ⟨?_, 0, 0, ?_, ?_⟩⟩
  · simpa [dot, cross] using h1
  · funext i; fin_cases i <;> simp
  · exact ⟨by linarith, by linarith, by linarith, by linarith⟩

/-- Small triangles are missed, whatever the tolerance. -/
theorem ray_tri_small_violated {eps : ℝ} (he : 0 < eps) : ∃ ro rd v0 v1 v2 : V 3,
    dot (cross (v1 - v0) (v2 - v0)) rd ≠ 0 ∧ ro + (1 : ℝ) • rd ∈ tri v0 v1 v2 ∧ rayTri eps ro rd v0 v1 v2 = none := by
  refine ⟨![0, 0, -1], ![0, 0, 1], ![0, 0, 0], ![eps, 0, 0], ![0, 1, 0], ?_, ⟨1, 0, 0, by norm_num, le_rfl, le_rfl, by norm_num, ?_⟩, ?_⟩
  · simpa [dot, cross] using he.ne'
  · funext i; fin_cases i <;> simp
  · have : ¬ |dot (cross ((![eps, 0, 0] : V 3) - ![0, 0, 0]) (![0, 1, 0] - ![0, 0, 0])) ![0, 0, 1]| > eps := by
      simp [dot, cross, abs_of_pos he]
    simp only [rayTri]
    rw [if_neg this]

/-! ## Ray and box -/

open Classical in
/-- A ray that has a direction and does not run inside the plane of a face meets the box exactly when the function says so. -/
theorem ray_box_partial (ro rd : V 3) (nz : Fin 3 → Bool) (box : Cuboid 3) (hb : ∀ k, box.min k ≤ box.max k) (hd : ∃ k, rd k ≠ 0)
    (hf : ∀ k, rd k = 0 → ro k ≠ box.min k ∧ ro k ≠ box.max k) :
    rayBox ro rd nz box = true ↔ ∃ t : ℝ, 0 ≤ t ∧ ro + t • rd ∈ box.set := by
  obtain ⟨l0, h0, e0, f0, o0, s0, n0⟩ := axis box ro rd nz 0 (hb 0) (hf 0)
  obtain ⟨l1, h1, e1, f1, o1, s1, n1⟩ := axis box ro rd nz 1 (hb 1) (hf 1)
  obtain ⟨l2, h2, e2, f2, o2, s2, n2⟩ := axis box ro rd nz 2 (hb 2) (hf 2)
  have mem : ∀ t : ℝ, ro + t • rd ∈ box.set ↔ (l0 ≤ t ∧ (t : EReal) ≤ h0) ∧ (l1 ≤ t ∧ (t : EReal) ≤ h1) ∧ l2 ≤ t ∧ (t : EReal) ≤ h2 := fun t => by
    rw [s0, s1, s2]
    constructor
    · intro h
      exact ⟨by simpa using h 0, by simpa using h 1, by simpa using h 2⟩
    · rintro ⟨a, b, c⟩ i
      fin_cases i
      · simpa using a
      · simpa using b
      · simpa using c
  have alg : rayBox ro rd nz box = true ↔ max (max l0 l1) l2 ≤ min (min h0 h1) h2 ∧ 0 ≤ min (min h0 h1) h2 := by
    simp only [rayBox]
    rw [e0, f0, e1, f1, e2, f2]
    have hmin : (if Gt (some l1) (some l0) then some l1 else some l0) = some (max l0 l1) := by
      simp only [gt_some]
      split_ifs with h
      · rw [max_eq_right h.le]
      · rw [max_eq_left (not_lt.1 h)]
    have hmax : (if Gt (some h0) (some h1) then some h1 else some h0) = some (min h0 h1) := by
      simp only [gt_some]
      split_ifs with h
      · rw [min_eq_right h.le]
      · rw [min_eq_left (not_lt.1 h)]
    have hmax2 : (if Gt (some (min h0 h1)) (some h2) then some h2 else some (min h0 h1)) = some (min (min h0 h1) h2) := by
      simp only [gt_some]
      split_ifs with h
      · rw [min_eq_right h.le]
      · rw [min_eq_left (not_lt.1 h)]
    rw [hmin, hmax, hmax2]
    simp only [gt_some]
    split_ifs with g1 g2
    · simp only [Bool.false_eq_true, false_iff]
      rintro ⟨h, _⟩
      rcases g1 with g | g
      · exact absurd (((le_max_left _ _).trans (le_max_left _ _)).trans (h.trans ((min_le_left _ _).trans (min_le_right _ _)))) (not_le.2 g)
      · exact absurd (((le_max_right _ _).trans (le_max_left _ _)).trans (h.trans ((min_le_left _ _).trans (min_le_left _ _)))) (not_le.2 g)
    · simp only [Bool.false_eq_true, false_iff]
      rintro ⟨h, _⟩
      rcases g2 with g | g
      · exact absurd ((le_max_left _ _).trans (h.trans (min_le_right _ _))) (not_le.2 g)
      · exact absurd ((le_max_right _ _).trans (h.trans (min_le_left _ _))) (not_le.2 g)
    · simp only [not_or, not_lt] at g1 g2
      simp only [ge_iff_le, decide_eq_true_eq]
      refine (and_iff_right ?_).symm
      refine max_le (le_min (max_le (le_min o0 g1.1) (le_min g1.2 o1)) g2.1) (le_min g2.2 o2)
  rw [alg]
  constructor
  · rintro ⟨hlh, hpos⟩
    set L := max (max l0 l1) l2 with hL
    set H := min (min h0 h1) h2 with hH
    have hne : max L 0 ≠ ⊤ := by
      intro h
      have hH' : H = ⊤ := top_le_iff.1 (h ▸ max_le hlh hpos)
      have a0 : h0 = ⊤ := top_le_iff.1 (hH' ▸ (min_le_left _ _).trans (min_le_left _ _))
      have a1 : h1 = ⊤ := top_le_iff.1 (hH' ▸ (min_le_left _ _).trans (min_le_right _ _))
      have a2 : h2 = ⊤ := top_le_iff.1 (hH' ▸ min_le_right _ _)
      obtain ⟨k, hk⟩ := hd
      fin_cases k
      · exact (n0 hk).2.2.1 a0
      · exact (n1 hk).2.2.1 a1
      · exact (n2 hk).2.2.1 a2
    have hnb : max L 0 ≠ ⊥ := fun h => by
      have : (0 : EReal) ≤ ⊥ := h ▸ le_max_right _ _
      exact absurd (le_bot_iff.1 this) EReal.zero_ne_bot
    have ht : (((max L 0).toReal : ℝ) : EReal) = max L 0 := EReal.coe_toReal hne hnb
    refine ⟨(max L 0).toReal, EReal.toReal_nonneg (le_max_right _ _), (mem _).2 ?_⟩
    rw [ht]
    have hML : max L 0 ≤ H := max_le hlh hpos
    exact ⟨⟨((le_max_left _ _).trans (le_max_left _ _)).trans (le_max_left _ _), hML.trans ((min_le_left _ _).trans (min_le_left _ _))⟩,
      ⟨((le_max_right _ _).trans (le_max_left _ _)).trans (le_max_left _ _), hML.trans ((min_le_left _ _).trans (min_le_right _ _))⟩,
      (le_max_right _ _).trans (le_max_left _ _), hML.trans (min_le_right _ _)⟩
  · rintro ⟨t, ht, hm⟩
    obtain ⟨⟨a, b⟩, ⟨c, d⟩, e, f⟩ := (mem t).1 hm
    exact ⟨(max_le (max_le a c) e).trans (le_min (le_min b d) f), le_trans (by exact_mod_cast ht) (le_min (le_min b d) f)⟩

/-- The unit box. -/
def unit : Cuboid 3 := ⟨0, 1⟩

open Classical in
/-- A ray inside the plane of a lower face: a miss is reported as a hit. -/
theorem ray_box_hit_violated : rayBox ![0, -5, -1] ![0, 1, 1] (fun _ => false) unit = true ∧
    ¬ ∃ t : ℝ, 0 ≤ t ∧ (![0, -5, -1] + t • ![0, 1, 1] : V 3) ∈ unit.set := by
  constructor
  · have n10 : ¬ ((1 : EReal) < 0) := not_lt.2 zero_le_one
    have e0 : enter unit ![0, -5, -1] ![0, 1, 1] (fun _ => false) 0 = none := by simp [enter, inv, mul, unit]
    have f0 : leave unit ![0, -5, -1] ![0, 1, 1] (fun _ => false) 0 = some ⊤ := by simp [leave, inv, mul, unit]
    have e1 : enter unit ![0, -5, -1] ![0, 1, 1] (fun _ => false) 1 = some ((5 : ℝ) : EReal) := by
      rw [enter, show (![0, 1, 1] : V 3) 1 = 1 from rfl, mul_of_fin one_ne_zero]; simp [inv, unit, n10]
    have f1 : leave unit ![0, -5, -1] ![0, 1, 1] (fun _ => false) 1 = some ((6 : ℝ) : EReal) := by
      rw [leave, show (![0, 1, 1] : V 3) 1 = 1 from rfl, mul_of_fin one_ne_zero]
      refine congrArg (fun r : ℝ => some (r : EReal)) ?_
      simp [inv, unit, n10]; norm_num
    have e2 : enter unit ![0, -5, -1] ![0, 1, 1] (fun _ => false) 2 = some ((1 : ℝ) : EReal) := by
      rw [enter, show (![0, 1, 1] : V 3) 2 = 1 from rfl, mul_of_fin one_ne_zero]; simp [inv, unit, n10]
    have f2 : leave unit ![0, -5, -1] ![0, 1, 1] (fun _ => false) 2 = some ((2 : ℝ) : EReal) := by
      rw [leave, show (![0, 1, 1] : V 3) 2 = 1 from rfl, mul_of_fin one_ne_zero]
      refine congrArg (fun r : ℝ => some (r : EReal)) ?_
      simp [inv, unit, n10]; norm_num
    have g1 : ((6 : ℝ) : EReal) < ⊤ := EReal.coe_lt_top _
    have g2 : ((2 : ℝ) : EReal) < ((6 : ℝ) : EReal) := by rw [EReal.coe_lt_coe_iff]; norm_num
    have g3 : (1 : EReal) ≤ ((6 : ℝ) : EReal) := by exact_mod_cast (by norm_num : (1 : ℝ) ≤ 6)
    have g4 : (0 : EReal) ≤ ((2 : ℝ) : EReal) := by exact_mod_cast (by norm_num : (0 : ℝ) ≤ 2)
    simp only [rayBox]
    rw [e0, f0, e1, f1, e2, f2]
    simp [gt_some, gt_none_left, gt_none_right, g1, g2, g3, g4]
  · rintro ⟨t, _, h⟩
    have h1 := (h 1).1
    have h2 := (h 2).2
    simp [unit] at h1 h2
    linarith

/-- A ray inside the plane of an upper face: a hit is reported as a miss. -/
theorem ray_box_miss_violated : rayBox ![1, -1, 1 / 2] ![0, 1, 0] (fun _ => false) unit = false ∧
    ∃ t : ℝ, 0 ≤ t ∧ (![1, -1, 1 / 2] + t • ![0, 1, 0] : V 3) ∈ unit.set := by
  constructor
  · have f0 : leave unit ![1, -1, 1 / 2] ![0, 1, 0] (fun _ => false) 0 = none := by simp [leave, inv, mul, unit]
    simp only [rayBox]
    rw [f0]
    simp [gt_none_left, gt_none_right]
  · refine ⟨1, zero_le_one, fun i => ?_⟩
    fin_cases i <;> simp [unit] <;> norm_num

/-- Hypotheses of the theorems are met. -/
example : rayBox ![-1, 1 / 2, 1 / 2] ![1, 0, 0] (fun _ => true) unit = true := by
  refine (ray_box_partial _ _ _ _ (fun k => by simp [unit]) ⟨0, by simp⟩ fun k hk => ?_).2 ⟨1, zero_le_one, fun i => ?_⟩
  · fin_cases k
    · simp at hk
    · simp [unit]
    · simp [unit]
  · fin_cases i <;> simp [unit] <;> norm_num

example : ptBroadphase (![0, 0, 2] : V 3) ![0, 0, 0] ![1, 0, 0] ![0, 1, 0] ![0, 0, -1] 0 0 0 1 1 = true :=
  pt_conservative _ _ _ _ _ _ _ _ (t := 1) zero_le_one le_rfl ![0, 0, 0] ⟨1, 0, 0, by norm_num, le_rfl, le_rfl, by norm_num, by funext i; fin_cases i <;> simp [at']⟩
    (by
      have : at' ![0, 0, 2] ![0, 0, -1] 1 - (![0, 0, 0] : V 3) = Pi.single 2 1 := by
        funext i; fin_cases i <;> simp [at'] <;> norm_num
      rw [this, len_single, abs_one])

end Verif.Volumes
