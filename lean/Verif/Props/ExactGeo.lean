import Verif.Proof.ExactGeo

/-!
Properties of the exact geometric predicates (C109).
-/
namespace Verif.ExactGeo

/-- A triangle is found degenerate exactly when its corners are on one line, although the first test has a tolerance. -/
theorem degenerate_exact (t1 t2 t3 : V3) : degenerate t1 t2 t3 = true ↔ Collinear t1 t2 t3 := by
  rw [degenerate_cross]
  constructor
  · intro h
    by_cases hu : sub t1 t2 = ⟨0, 0, 0⟩
    · simp only [V3.ext_iff, sub] at hu
      refine ⟨t1, sub t3 t1, 0, 0, 1, V3.ext ?_ ?_ ?_, V3.ext ?_ ?_ ?_, V3.ext ?_ ?_ ?_⟩ <;> simp only [addMul, sub] <;> linarith
    · obtain ⟨t, ht, _⟩ := parallel h hu
      simp only [V3.ext_iff, addMul, sub] at ht
      refine ⟨t1, sub t1 t2, 0, -1, -t, V3.ext ?_ ?_ ?_, V3.ext ?_ ?_ ?_, V3.ext ?_ ?_ ?_⟩ <;> simp only [addMul, sub] <;> linarith
  · rintro ⟨p, d, r, s, t, rfl, rfl, rfl⟩
    refine V3.ext ?_ ?_ ?_ <;> simp only [cross, sub, addMul] <;> ring

/-- `point_on_segment` is exact, also for segments of length zero. -/
theorem segment_exact (pt s0 s1 : V3) : pointOnSegment pt s0 s1 = true ↔ OnSegment pt s0 s1 := by
  have hbox : inBox pt s0 s1 = true ↔ (min s0.x s1.x ≤ pt.x ∧ pt.x ≤ max s0.x s1.x) ∧ (min s0.y s1.y ≤ pt.y ∧ pt.y ≤ max s0.y s1.y) ∧
      (min s0.z s1.z ≤ pt.z ∧ pt.z ≤ max s0.z s1.z) := by simp [inBox, and_assoc]
  have hin : ∀ {a b p : ℚ}, min a b ≤ p → p ≤ max a b → b - a ≠ 0 → 0 ≤ (p - a) / (b - a) ∧ (p - a) / (b - a) ≤ 1 := by
    intro a b p h1 h2 hne
    rcases lt_or_gt_of_ne hne with h | h
    · rw [min_eq_right (by linarith)] at h1
      rw [max_eq_left (by linarith)] at h2
      exact ⟨div_nonneg_of_nonpos (by linarith) h.le, (div_le_one_of_neg h).2 (by linarith)⟩
    · rw [min_eq_left (by linarith)] at h1
      rw [max_eq_right (by linarith)] at h2
      exact ⟨div_nonneg (by linarith) h.le, (div_le_one h).2 (by linarith)⟩
  have hout : ∀ {a b t : ℚ}, 0 ≤ t → t ≤ 1 → min a b ≤ a + t * (b - a) ∧ a + t * (b - a) ≤ max a b := by
    intro a b t h0 h1
    rcases le_total a b with h | h
    · rw [min_eq_left h, max_eq_right h]
      exact ⟨by nlinarith, by nlinarith⟩
    · rw [min_eq_right h, max_eq_left h]
      exact ⟨by nlinarith, by nlinarith⟩
  have hdef : pointOnSegment pt s0 s1 = true ↔ degenerate pt s0 s1 = true ∧ inBox pt s0 s1 = true := by
    unfold pointOnSegment
    cases degenerate pt s0 s1 <;> simp
  rw [hdef, degenerate_cross, hbox]
  constructor
  · rintro ⟨h, ⟨hx1, hx2⟩, ⟨hy1, hy2⟩, hz1, hz2⟩
    have hc : cross (sub s1 s0) (sub pt s0) = ⟨0, 0, 0⟩ := by
      simp only [V3.ext_iff, cross, sub] at h ⊢
      exact ⟨by linear_combination h.1, by linear_combination h.2.1, by linear_combination h.2.2⟩
    by_cases hu : sub s1 s0 = ⟨0, 0, 0⟩
    · simp only [V3.ext_iff, sub] at hu
      obtain ⟨u1, u2, u3⟩ := hu
      rw [show s1.x = s0.x by linarith, min_self] at hx1
      rw [show s1.x = s0.x by linarith, max_self] at hx2
      rw [show s1.y = s0.y by linarith, min_self] at hy1
      rw [show s1.y = s0.y by linarith, max_self] at hy2
      rw [show s1.z = s0.z by linarith, min_self] at hz1
      rw [show s1.z = s0.z by linarith, max_self] at hz2
      exact ⟨0, le_rfl, zero_le_one, V3.ext (by simp only [addMul]; linarith) (by simp only [addMul]; linarith) (by simp only [addMul]; linarith)⟩
    · obtain ⟨t, ht, kx, ky, kz⟩ := parallel hc hu
      have hr : 0 ≤ t ∧ t ≤ 1 := by
        by_cases ex : s1.x - s0.x = 0
        · by_cases ey : s1.y - s0.y = 0
          · by_cases ez : s1.z - s0.z = 0
            · exact absurd (V3.ext ex ey ez) hu
            · rw [kz ez]; exact hin hz1 hz2 ez
          · rw [ky ey]; exact hin hy1 hy2 ey
        · rw [kx ex]; exact hin hx1 hx2 ex
      simp only [V3.ext_iff, addMul, sub] at ht
      refine ⟨t, hr.1, hr.2, V3.ext ?_ ?_ ?_⟩ <;> simp only [addMul, sub] <;> linarith
  · rintro ⟨t, h0, h1, rfl⟩
    refine ⟨V3.ext ?_ ?_ ?_, hout h0 h1, hout h0 h1, hout h0 h1⟩ <;> simp only [cross, sub, addMul] <;> ring

/-- `point_on_ray` is exact for directions whose second and third component are not zero. -/
theorem ray_exact_partial (s0 d pt : V3) (hy : d.y ≠ 0) (hz : d.z ≠ 0) :
    (pointOnRay s0 (addMul s0 1 d) d pt = 2 ↔ pt = s0) ∧ (pointOnRay s0 (addMul s0 1 d) d pt = 1 ↔ OnRay pt s0 d) := by
  have hu : d ≠ ⟨0, 0, 0⟩ := fun e => hy (by rw [e])
  have hcol : degenerate s0 (addMul s0 1 d) pt = true ↔ cross d (sub pt s0) = ⟨0, 0, 0⟩ := by
    rw [degenerate_cross]
    simp only [V3.ext_iff, cross, sub, addMul]
    constructor <;> rintro ⟨a, b, c⟩ <;> exact ⟨by linear_combination a, by linear_combination b, by linear_combination c⟩
  by_cases hs : s0 = pt
  · subst hs
    refine ⟨by simp [pointOnRay], ?_⟩
    simp only [pointOnRay, if_true]
    refine ⟨fun e => by simp at e, ?_⟩
    rintro ⟨t, ht, e⟩
    have := congrArg V3.y e
    simp only [addMul] at this
    exact absurd (by linarith) (mul_ne_zero ht.ne' hy)
  · by_cases hd : degenerate s0 (addMul s0 1 d) pt = true
    · obtain ⟨t, ht, _⟩ := parallel (hcol.1 hd) hu
      have hx' : pt.x = s0.x + t * d.x := by have := congrArg V3.x ht; simp only [addMul, sub] at this; linarith
      have hy' : pt.y = s0.y + t * d.y := by have := congrArg V3.y ht; simp only [addMul, sub] at this; linarith
      have hz' : pt.z = s0.z + t * d.z := by have := congrArg V3.z ht; simp only [addMul, sub] at this; linarith
      have ht0 : t ≠ 0 := fun e => hs (V3.ext (by rw [hx', e]; ring) (by rw [hy', e]; ring) (by rw [hz', e]; ring))
      have hiff : OnRay pt s0 d ↔ 0 < t := by
        constructor
        · rintro ⟨r, hr, e⟩
          have := congrArg V3.y e
          simp only [addMul] at this
          have : r = t := mul_right_cancel₀ hy (by linarith)
          exact this ▸ hr
        · intro h
          exact ⟨t, h, V3.ext hx' hy' hz'⟩
      rw [hiff]
      unfold pointOnRay
      rw [if_neg hs, hd]
      simp only [Bool.not_true, Bool.false_eq_true, if_false, hx', hy', hz']
      refine ⟨⟨fun e => ?_, fun e => absurd e.symm hs⟩, ?_⟩
      · exfalso
        repeat' split at e
        all_goals omega
      · rcases lt_or_gt_of_ne ht0 with k | k
        · refine ⟨fun e => ?_, fun e => absurd e (not_lt.2 k.le)⟩
          exfalso
          rcases lt_or_gt_of_ne hy with q | q
          · have := mul_pos_of_neg_of_neg k q
            have h5 : d.y ≤ 0 ∧ s0.y + t * d.y ≥ s0.y := ⟨q.le, by linarith⟩
            rw [if_pos h5] at e
            repeat' split at e
            all_goals omega
          · have := mul_neg_of_neg_of_pos k q
            have h5 : d.y > 0 ∧ s0.y + t * d.y ≤ s0.y := ⟨q, by linarith⟩
            rw [if_pos h5] at e
            repeat' split at e
            all_goals omega
        · refine ⟨fun _ => k, fun _ => ?_⟩
          have g : ∀ {w a : ℚ}, ¬(w > 0 ∧ a + t * w ≤ a) := fun ⟨h1, h2⟩ => by have := mul_pos k h1; linarith
          have g2 : ∀ {w a : ℚ}, ¬(w < 0 ∧ a + t * w ≥ a) := fun ⟨h1, h2⟩ => by have := mul_neg_of_pos_of_neg k h1; linarith
          have g3 : ∀ {w a : ℚ}, ¬(w = 0 ∧ a + t * w ≠ a) := fun ⟨h1, h2⟩ => h2 (by rw [h1]; ring)
          have g4 : ∀ {w a : ℚ}, w ≠ 0 → ¬(w ≤ 0 ∧ a + t * w ≥ a) := fun hw ⟨h1, h2⟩ => g2 ⟨lt_of_le_of_ne h1 hw, h2⟩
          rw [if_neg g, if_neg g2, if_neg g3, if_neg g, if_neg (g4 hy), if_neg g3, if_neg g, if_neg (g4 hz), if_neg g3]
    · have hv : pointOnRay s0 (addMul s0 1 d) d pt = 0 := by
        unfold pointOnRay
        rw [if_neg hs, if_pos (by simp [hd])]
      rw [hv]
      refine ⟨⟨fun e => by simp at e, fun e => absurd e.symm hs⟩, fun e => by simp at e, ?_⟩
      rintro ⟨t, ht, rfl⟩
      refine absurd (hcol.2 ?_) hd
      refine V3.ext ?_ ?_ ?_ <;> simp only [cross, sub, addMul] <;> ring

/-- No point is ever found on a ray whose second or third component is zero. -/
theorem ray_violated (s0 e0 d pt : V3) (h : d.y = 0 ∨ d.z = 0) : pointOnRay s0 e0 d pt ≠ 1 := by
  unfold pointOnRay
  intro e
  repeat' split at e
  all_goals first
    | omega
    | skip
  rename_i h1 h2 h3
  rcases h with h | h
  · rename_i k1 k2 k3 k4 k5
    simp only [h, not_and, not_le, not_lt, ge_iff_le, le_refl, forall_const, not_not, gt_iff_lt, lt_irrefl, false_imp_iff, true_imp_iff] at *
    linarith
  · simp only [h, not_and, not_le, not_lt, ge_iff_le, le_refl, forall_const, not_not, gt_iff_lt, lt_irrefl, false_imp_iff, true_imp_iff] at *
    linarith

/-- `ray_segment_intersection` is exact for directions whose second and third component are not zero: 2 if the ray starts on the segment, otherwise 1 if it meets
the segment and 0 if not; segments of length zero and segments along the ray included. -/
theorem ray_segment_exact_partial (np : V3 → V3 → V3 → V3) (s0 d s1 e1 : V3) (hy : d.y ≠ 0) (hz : d.z ≠ 0)
    (hn : degenerate s1 s0 (addMul s0 1 d) = false → det (np s1 s0 (addMul s0 1 d)) s1 s0 (addMul s0 1 d) ≠ 0) :
    (raySegment np s0 (addMul s0 1 d) d s1 e1 = 2 ↔ OnSegment s0 s1 e1) ∧
      (raySegment np s0 (addMul s0 1 d) d s1 e1 = 1 ↔ ¬OnSegment s0 s1 e1 ∧ ∃ p, OnRay p s0 d ∧ OnSegment p s1 e1) := by
  have hu : d ≠ ⟨0, 0, 0⟩ := fun e => hy (by rw [e])
  have hray := fun pt => ray_exact_partial s0 d pt hy hz
  have hexcl : ∀ {p}, OnRay p s0 d → p ≠ s0 := fun {p} h e => by
    have h1 := (hray p).2.2 h
    have h2 := (hray p).1.2 e
    rw [h1] at h2; cases h2
  unfold raySegment
  by_cases hA : e1 = s1
  · subst hA
    rw [if_pos rfl]
    have hseg : ∀ p, OnSegment p e1 e1 ↔ p = e1 := by
      intro p
      constructor
      · rintro ⟨t, _, _, rfl⟩
        refine V3.ext ?_ ?_ ?_ <;> simp only [addMul, sub] <;> ring
      · rintro rfl
        exact ⟨0, le_rfl, zero_le_one, (addMul_zero _ _).symm⟩
    rw [(hray e1).1, (hray e1).2, hseg]
    refine ⟨eq_comm, fun h => ⟨fun e => hexcl h e.symm, e1, h, (hseg e1).2 rfl⟩, ?_⟩
    rintro ⟨_, p, h1, h2⟩
    exact (hseg p).1 h2 ▸ h1
  · rw [if_neg hA]
    by_cases hB : orient3d s0 (addMul s0 1 d) s1 e1 ≠ 0
    · rw [if_pos hB]
      have hB' : det s0 (addMul s0 1 d) s1 e1 ≠ 0 := fun e => hB (sgn_zero.2 e)
      refine ⟨⟨fun e => by simp at e, fun h => absurd (coplanar (r := 0) (by rw [addMul_zero]; exact h)) hB'⟩, fun e => by simp at e, ?_⟩
      rintro ⟨_, p, ⟨r, _, rfl⟩, h⟩
      exact absurd (coplanar h) hB'
    · rw [if_neg hB]
      have hco : det s0 (addMul s0 1 d) s1 e1 = 0 := sgn_zero.1 (not_not.1 hB)
      by_cases hC : pointOnSegment s0 s1 e1 = true
      · rw [if_pos hC]
        have hC' := (segment_exact s0 s1 e1).1 hC
        exact ⟨⟨fun _ => hC', fun _ => rfl⟩, fun e => by simp at e, fun h => absurd hC' h.1⟩
      · rw [if_neg hC]
        have hC' : ¬OnSegment s0 s1 e1 := fun h => hC ((segment_exact s0 s1 e1).2 h)
        cases hdeg : degenerate s1 s0 (addMul s0 1 d) with
        | false =>
          have hK := hn hdeg
          generalize np s1 s0 (addMul s0 1 d) = n at hK ⊢
          have hD : det s1 n s0 (addMul s0 1 d) ≠ 0 := by
            have : det s1 n s0 (addMul s0 1 d) = -det n s1 s0 (addMul s0 1 d) := by simp only [det]; ring
            rw [this]; exact neg_ne_zero.2 hK
          have hp : det e1 s1 s0 (addMul s0 1 d) = 0 := by
            have : det e1 s1 s0 (addMul s0 1 d) = det s0 (addMul s0 1 d) e1 s1 := by simp only [det]; ring
            rw [this]
            have : det s0 (addMul s0 1 d) e1 s1 = -det s0 (addMul s0 1 d) s1 e1 := by simp only [det]; ring
            rw [this, hco, neg_zero]
          obtain ⟨x, b, y, hs, he⟩ := mix_exists hD hp
          have hseg := segment_coords hD hs he
          have d1 : det n e1 s0 (addMul s0 1 d) = x * det n s1 s0 (addMul s0 1 d) := by
            obtain rfl : x = 1 - b - y := by linarith
            rw [he]; simp only [det, mix]; ring
          have d2 : det n e1 s0 s1 = y * -det n s1 s0 (addMul s0 1 d) := by
            obtain rfl : x = 1 - b - y := by linarith
            rw [he]; simp only [det, mix]; ring
          have hmeet : (∃ p, OnRay p s0 d ∧ OnSegment p s1 e1) ↔ x ≤ 0 ∧ 0 < y := by
            constructor
            · rintro ⟨p, ⟨r, hr, rfl⟩, h⟩
              obtain ⟨t, h0, h1, k1, k2⟩ := (hseg r).1 h
              have ht : 0 < t := lt_of_le_of_ne h0 fun e => by rw [← e] at k1; norm_num at k1
              refine ⟨?_, pos_of_mul_pos_right (k2 ▸ hr) h0⟩
              by_contra hx
              have := mul_pos ht (not_le.1 hx)
              linarith
            · rintro ⟨hx, hy'⟩
              have h1x : 0 < 1 - x := by linarith
              refine ⟨_, ⟨1 / (1 - x) * y, mul_pos (one_div_pos.2 h1x) hy', rfl⟩, (hseg _).2 ⟨1 / (1 - x), (one_div_pos.2 h1x).le, ?_, ?_, rfl⟩⟩
              · rw [div_le_one h1x]; linarith
              · field_simp; ring
          have hnot : ¬(x ≤ 0 ∧ y = 0) := by
            rintro ⟨hx, hy'⟩
            have h1x : 0 < 1 - x := by linarith
            refine hC' ?_
            rw [← addMul_zero s0 d]
            exact (hseg 0).2 ⟨1 / (1 - x), (one_div_pos.2 h1x).le, by rw [div_le_one h1x]; linarith, by field_simp; ring, by rw [hy', mul_zero]⟩
          have hline : ∀ r : ℚ, addMul s0 r d = mix 0 (1 - r) r s1 s0 (addMul s0 1 d) := by
            intro r; refine V3.ext ?_ ?_ ?_ <;> simp only [mix, addMul] <;> ring
          have hs1 : s1 = mix 1 0 0 s1 s0 (addMul s0 1 d) := by refine V3.ext ?_ ?_ ?_ <;> simp only [mix] <;> ring
          have hs1r : ∀ r : ℚ, s1 ≠ addMul s0 r d := fun r e => by
            have := (mix_unique hD (by ring) (by ring) (hs1.symm.trans (e.trans (hline r)))).1
            norm_num at this
          have he1r : ∀ r : ℚ, e1 = addMul s0 r d → x = 0 ∧ y = r := fun r e => by
            obtain ⟨k1, _, k3⟩ := mix_unique hD hs (by ring) (he.symm.trans (e.trans (hline r)))
            exact ⟨k1, k3⟩
          simp only [Bool.not_false, if_true, orient3d, d1, d2, sgn_mul]
          rw [hmeet]
          by_cases hx0 : x = 0
          · rw [if_pos (by rw [sgn_zero.2 hx0, zero_mul]), (hray e1).1, (hray e1).2]
            have hey : e1 = addMul s0 y d := by
              rw [he, hx0, hline y, show b = 1 - y by linarith]
            refine ⟨⟨fun e => ?_, fun h => absurd h hC'⟩, ?_, ?_⟩
            · have := (he1r 0 (by rw [addMul_zero]; exact e)).2
              exact absurd ⟨hx0.le, this⟩ hnot
            · rintro ⟨r, hr, e⟩
              exact ⟨hC', hx0.le, by rw [(he1r r e).2]; exact hr⟩
            · rintro ⟨_, _, h⟩
              exact ⟨y, h, hey⟩
          · have hK0 : sgn (det n s1 s0 (addMul s0 1 d)) ≠ 0 := fun e => hK (sgn_zero.1 e)
            rw [if_neg (mul_ne_zero (fun e => hx0 (sgn_zero.1 e)) hK0)]
            by_cases hy0 : y = 0
            · rw [if_pos (by rw [sgn_zero.2 hy0, zero_mul])]
              have n1 : ∀ q, (∀ r : ℚ, q ≠ addMul s0 r d) → ¬pointOnRay s0 (addMul s0 1 d) d q > 0 := by
                intro q hq hpos
                rcases pointOnRay_range s0 (addMul s0 1 d) d q with k | k | k
                · rw [k] at hpos; exact absurd hpos (by decide)
                · obtain ⟨r, _, e⟩ := (hray q).2.1 k
                  exact hq r e
                · exact hq 0 (by rw [addMul_zero]; exact (hray q).1.1 k)
              rw [if_neg (fun h => h.elim (n1 s1 hs1r) (n1 e1 fun r e => hx0 (he1r r e).1))]
              exact ⟨⟨fun e => by simp at e, fun h => absurd h hC'⟩, fun e => by simp at e, fun h => absurd hy0 h.2.2.ne'⟩
            · have hKn : sgn (-det n s1 s0 (addMul s0 1 d)) = -sgn (det n s1 s0 (addMul s0 1 d)) := by
                rw [show -det n s1 s0 (addMul s0 1 d) = (-1 : ℚ) * det n s1 s0 (addMul s0 1 d) by ring, sgn_mul, sgn_neg (by norm_num : (-1 : ℚ) < 0)]; ring
              rw [hKn, if_neg (mul_ne_zero (fun e => hy0 (sgn_zero.1 e)) (neg_ne_zero.2 hK0))]
              have hcond : (sgn x * sgn (det n s1 s0 (addMul s0 1 d)) = sgn y * -sgn (det n s1 s0 (addMul s0 1 d)) ∧
                  -1 * sgn (det n s1 s0 (addMul s0 1 d)) = sgn y * -sgn (det n s1 s0 (addMul s0 1 d))) ↔ x ≤ 0 ∧ 0 < y := by
                rcases sgn_cases hK with k | k <;> rw [k] <;>
                rcases three x with ⟨kx, sx, kx2, kx3, kx4⟩ | ⟨kx, sx, kx2, kx3⟩ | ⟨kx, sx, kx2, kx3⟩ <;>
                rcases three y with ⟨ky, sy, ky2, ky3, ky4⟩ | ⟨ky, sy, ky2, ky3⟩ | ⟨ky, sy, ky2, ky3⟩ <;>
                first
                | exact absurd kx hx0
                | exact absurd ky hy0
                | (rw [sx, sy]; refine iff_of_false (by decide) (fun h => ?_); linarith [h.1, h.2])
                | (rw [sx, sy]; exact iff_of_true (by decide) ⟨by linarith, by linarith⟩)
              by_cases hc : x ≤ 0 ∧ 0 < y
              · rw [if_pos (hcond.2 hc)]
                exact ⟨⟨fun e => by simp at e, fun h => absurd h hC'⟩, fun _ => ⟨hC', hc⟩, fun _ => rfl⟩
              · rw [if_neg fun h => hc (hcond.1 h)]
                exact ⟨⟨fun e => by simp at e, fun h => absurd h hC'⟩, fun e => by simp at e, fun h => absurd h.2 hc⟩
        | true =>
          simp only [Bool.not_true, Bool.false_eq_true, if_false]
          have hcr : cross d (sub s1 s0) = ⟨0, 0, 0⟩ := by
            have := (degenerate_cross _ _ _).1 hdeg
            simp only [V3.ext_iff, cross, sub, addMul] at this ⊢
            exact ⟨by linear_combination this.1, by linear_combination this.2.1, by linear_combination this.2.2⟩
          obtain ⟨q, hq, _⟩ := parallel hcr hu
          simp only [V3.ext_iff, addMul, sub] at hq
          have hs1 : s1 = addMul s0 q d := by refine V3.ext ?_ ?_ ?_ <;> simp only [addMul] <;> linarith
          have hmeet : (∃ p, OnRay p s0 d ∧ OnSegment p s1 e1) → OnRay s1 s0 d := by
            rintro ⟨p, ⟨r, hr, rfl⟩, t, h0, h1, e⟩
            rcases lt_trichotomy q 0 with k | k | k
            · exfalso
              have hrq : 0 < r - q := by linarith
              refine hC' ⟨-q / (r - q) * t, mul_nonneg (div_nonneg (by linarith) hrq.le) h0, ?_, ?_⟩
              · have : -q / (r - q) ≤ 1 := by rw [div_le_one hrq]; linarith
                nlinarith [div_nonneg (by linarith : 0 ≤ -q) hrq.le]
              · simp only [V3.ext_iff, addMul, sub] at e
                obtain ⟨ex, ey, ez⟩ := e
                have w1 : t * (e1.x - s1.x) = (r - q) * d.x := by linarith [hq.1]
                have w2 : t * (e1.y - s1.y) = (r - q) * d.y := by linarith [hq.2.1]
                have w3 : t * (e1.z - s1.z) = (r - q) * d.z := by linarith [hq.2.2]
                refine V3.ext ?_ ?_ ?_ <;> simp only [addMul, sub]
                · rw [mul_assoc, w1]; field_simp; linarith [hq.1]
                · rw [mul_assoc, w2]; field_simp; linarith [hq.2.1]
                · rw [mul_assoc, w3]; field_simp; linarith [hq.2.2]
            · exfalso
              refine hC' ⟨0, le_rfl, zero_le_one, ?_⟩
              rw [addMul_zero, hs1, k, addMul_zero]
            · exact ⟨q, k, hs1⟩
          have hself : OnSegment s1 s1 e1 := ⟨0, le_rfl, zero_le_one, (addMul_zero _ _).symm⟩
          by_cases h : OnRay s1 s0 d
          · rw [if_pos ((hray s1).2.2 h)]
            exact ⟨⟨fun e => by simp at e, fun h => absurd h hC'⟩, fun _ => ⟨hC', s1, h, hself⟩, fun _ => rfl⟩
          · rw [if_neg fun e => h ((hray s1).2.1 e)]
            exact ⟨⟨fun e => by simp at e, fun h => absurd h hC'⟩, fun e => by simp at e, fun k => absurd (hmeet k.2) h⟩

/-- Where a point is in a triangle that is not degenerate: in the interior (1), on the border (2), elsewhere (0), whatever point outside of the plane is used. -/
theorem triangle_exact (np : V3 → V3 → V3 → V3) (pt t1 t2 t3 : V3) (hn : det (np t1 t2 t3) t1 t2 t3 ≠ 0) :
    (pointTriangle np pt t1 t2 t3 false = 1 ↔ Interior pt t1 t2 t3) ∧ (pointTriangle np pt t1 t2 t3 false = 2 ↔ Border pt t1 t2 t3) ∧
      (pointTriangle np pt t1 t2 t3 true = 3 ↔ Edge23 pt t1 t2 t3) := by
  have hD : det t1 (np t1 t2 t3) t2 t3 ≠ 0 := by
    have : det t1 (np t1 t2 t3) t2 t3 = -det (np t1 t2 t3) t1 t2 t3 := by simp only [det]; ring
    rw [this]; exact neg_ne_zero.2 hn
  have huniq : ∀ {a b c a' b' c' : ℚ}, a + b + c = 1 → a' + b' + c' = 1 → mix a b c t1 t2 t3 = mix a' b' c' t1 t2 t3 → a = a' ∧ b = b' ∧ c = c' :=
    fun hs hs' e => mix_unique hD hs hs' e
  by_cases hp : det pt t1 t2 t3 = 0
  · obtain ⟨a, b, c, hs, rfl⟩ := mix_exists hD hp
    rw [pointTriangle_mix np hn hs, pointTriangle_mix np hn hs]
    simp only [Bool.false_eq_true, false_and, if_false, true_and]
    refine ⟨?_, ?_, ?_⟩
    · constructor
      · intro e
        by_cases h : 0 < a ∧ 0 < b ∧ 0 < c
        · exact ⟨a, b, c, h.1, h.2.1, h.2.2, hs, rfl⟩
        · rw [if_neg h] at e; split at e <;> omega
      · rintro ⟨a', b', c', h1, h2, h3, hs', e⟩
        obtain ⟨rfl, rfl, rfl⟩ := huniq hs hs' e
        rw [if_pos ⟨h1, h2, h3⟩]
    · constructor
      · intro e
        by_cases h : 0 < a ∧ 0 < b ∧ 0 < c
        · rw [if_pos h] at e; omega
        · rw [if_neg h] at e
          by_cases h' : 0 ≤ a ∧ 0 ≤ b ∧ 0 ≤ c
          · refine ⟨a, b, c, h'.1, h'.2.1, h'.2.2, hs, ?_, rfl⟩
            by_contra hne
            push Not at hne
            exact h ⟨lt_of_le_of_ne h'.1 hne.1.symm, lt_of_le_of_ne h'.2.1 hne.2.1.symm, lt_of_le_of_ne h'.2.2 hne.2.2.symm⟩
          · rw [if_neg h'] at e; omega
      · rintro ⟨a', b', c', h1, h2, h3, hs', hz, e⟩
        obtain ⟨rfl, rfl, rfl⟩ := huniq hs hs' e
        rw [if_neg (fun ⟨k1, k2, k3⟩ => by rcases hz with z | z | z <;> linarith), if_pos ⟨h1, h2, h3⟩]
    · constructor
      · intro e
        by_cases h : a = 0 ∧ 0 < b ∧ 0 < c
        · exact ⟨a, b, c, h.1, h.2.1, h.2.2, hs, rfl⟩
        · rw [if_neg h] at e; repeat' split at e
          all_goals omega
      · rintro ⟨a', b', c', h1, h2, h3, hs', e⟩
        obtain ⟨rfl, rfl, rfl⟩ := huniq hs hs' e
        rw [if_pos ⟨h1, h2, h3⟩]
  · have hv : ∀ ho, pointTriangle np pt t1 t2 t3 ho = 0 := fun ho => if_pos fun e => hp (sgn_zero.1 e)
    have hno : ∀ a b c : ℚ, a + b + c = 1 → pt ≠ mix a b c t1 t2 t3 := fun a b c hs e => hp (e ▸ (bary_unique (np t1 t2 t3) t1 t2 t3 hs).2.2.2)
    rw [hv, hv]
    refine ⟨⟨fun e => by simp at e, ?_⟩, ⟨fun e => by simp at e, ?_⟩, ⟨fun e => by simp at e, ?_⟩⟩
    · rintro ⟨a, b, c, _, _, _, hs, e⟩; exact absurd e (hno a b c hs)
    · rintro ⟨a, b, c, _, _, _, hs, _, e⟩; exact absurd e (hno a b c hs)
    · rintro ⟨a, b, c, _, _, _, hs, e⟩; exact absurd e (hno a b c hs)

/-- A ray from a point outside of the plane of the triangle: it meets the interior (1), the border (-1), or nothing (0); the open edge between the second and the
third corner is told apart (3) if asked. -/
theorem ray_triangle_exact (np : V3 → V3 → V3 → V3) (pt pt1 d t1 t2 t3 : V3) (hp : det pt t1 t2 t3 ≠ 0) (hd : pt1 ≠ pt)
    (ht : degenerate t1 t2 t3 = false) (ho : Bool) :
    (rayTriangle np pt pt1 d t1 t2 t3 ho = 1 ↔ ∃ p, OnRay p pt (sub pt1 pt) ∧ Interior p t1 t2 t3) ∧
    (rayTriangle np pt pt1 d t1 t2 t3 false = -1 ↔ ∃ p, OnRay p pt (sub pt1 pt) ∧ Border p t1 t2 t3) ∧
    (rayTriangle np pt pt1 d t1 t2 t3 true = 3 ↔ ∃ p, OnRay p pt (sub pt1 pt) ∧ Edge23 p t1 t2 t3) := by
  have hV : det t3 pt t1 t2 ≠ 0 := by
    have : det t3 pt t1 t2 = -det pt t1 t2 t3 := by simp only [det]; ring
    rw [this]; exact neg_ne_zero.2 hp
  have hr : ∀ ho, rayTriangle np pt pt1 d t1 t2 t3 ho = rayTriangleOff pt pt1 t1 t2 t3 ho := by
    intro ho
    unfold rayTriangle
    rw [ht]
    simp only [Bool.false_eq_true, if_false]
    exact if_neg fun e => hp (sgn_zero.1 e)
  obtain ⟨a, b, c, h1, h2, h3, hn⟩ := coords hV hd
  have hco : ∀ {s a' b' c' : ℚ}, a' + b' + c' = 1 → 0 < s → addMul pt s (sub pt1 pt) = mix a' b' c' t1 t2 t3 → a' = s * a ∧ b' = s * b ∧ c' = s * c := by
    intro s a' b' c' hs hpos e
    obtain ⟨k1, k2, k3⟩ := hit_coords hs e
    rw [h1] at k1; rw [h2] at k2; rw [h3] at k3
    exact ⟨mul_right_cancel₀ hV (by linarith), mul_right_cancel₀ hV (by linarith), mul_right_cancel₀ hV (by linarith)⟩
  rw [hr, hr, hr, rayTriangleOff_coords hV h1 h2 h3 hn, rayTriangleOff_coords hV h1 h2 h3 hn, rayTriangleOff_coords hV h1 h2 h3 hn]
  simp only [Bool.false_eq_true, false_and, if_false, true_and]
  refine ⟨?_, ?_, ?_⟩
  · constructor
    · intro e
      by_cases h : 0 < a ∧ 0 < b ∧ 0 < c
      · have hS : 0 < a + b + c := by linarith
        exact ⟨_, ⟨_, one_div_pos.2 hS, rfl⟩, _, _, _, div_pos h.1 hS, div_pos h.2.1 hS, div_pos h.2.2 hS, by field_simp, hit_make hV h1 h2 h3 hS⟩
      · rw [if_neg h] at e; repeat' split at e
        all_goals omega
    · rintro ⟨p, ⟨s, hs, rfl⟩, a', b', c', k1, k2, k3, hsum, e⟩
      obtain ⟨rfl, rfl, rfl⟩ := hco hsum hs e
      rw [if_pos ⟨pos_of_mul_pos_right k1 hs.le, pos_of_mul_pos_right k2 hs.le, pos_of_mul_pos_right k3 hs.le⟩]
  · constructor
    · intro e
      by_cases h : 0 < a ∧ 0 < b ∧ 0 < c
      · rw [if_pos h] at e; omega
      · rw [if_neg h] at e
        by_cases h' : 0 ≤ a ∧ 0 ≤ b ∧ 0 ≤ c
        · have hS : 0 < a + b + c := by
            rcases lt_or_eq_of_le (add_nonneg (add_nonneg h'.1 h'.2.1) h'.2.2) with k | k
            · exact k
            · exact absurd ⟨by linarith [h'.1, h'.2.1, h'.2.2], by linarith [h'.1, h'.2.1, h'.2.2], by linarith [h'.1, h'.2.1, h'.2.2]⟩ hn
          refine ⟨_, ⟨_, one_div_pos.2 hS, rfl⟩, _, _, _, div_nonneg h'.1 hS.le, div_nonneg h'.2.1 hS.le, div_nonneg h'.2.2 hS.le, by field_simp, ?_,
            hit_make hV h1 h2 h3 hS⟩
          by_contra hne
          push Not at hne
          exact h ⟨lt_of_le_of_ne h'.1 fun e => hne.1 (by rw [← e, zero_div]), lt_of_le_of_ne h'.2.1 fun e => hne.2.1 (by rw [← e, zero_div]),
            lt_of_le_of_ne h'.2.2 fun e => hne.2.2 (by rw [← e, zero_div])⟩
        · rw [if_neg h'] at e; omega
    · rintro ⟨p, ⟨s, hs, rfl⟩, a', b', c', k1, k2, k3, hsum, hz, e⟩
      obtain ⟨rfl, rfl, rfl⟩ := hco hsum hs e
      have hz' : ¬(0 < a ∧ 0 < b ∧ 0 < c) := fun ⟨q1, q2, q3⟩ => by
        rcases hz with z | z | z
        · exact absurd z (mul_pos hs q1).ne'
        · exact absurd z (mul_pos hs q2).ne'
        · exact absurd z (mul_pos hs q3).ne'
      rw [if_neg hz', if_pos ⟨nonneg_of_mul_nonneg_right k1 hs, nonneg_of_mul_nonneg_right k2 hs, nonneg_of_mul_nonneg_right k3 hs⟩]
  · constructor
    · intro e
      by_cases h : 0 < a ∧ 0 < b ∧ 0 < c
      · rw [if_pos h] at e; omega
      · rw [if_neg h] at e
        by_cases h' : a = 0 ∧ 0 < b ∧ 0 < c
        · have hS : 0 < a + b + c := by linarith
          exact ⟨_, ⟨_, one_div_pos.2 hS, rfl⟩, _, _, _, by rw [h'.1, zero_div], div_pos h'.2.1 hS, div_pos h'.2.2 hS, by field_simp, hit_make hV h1 h2 h3 hS⟩
        · rw [if_neg h'] at e; split at e <;> omega
    · rintro ⟨p, ⟨s, hs, rfl⟩, a', b', c', k1, k2, k3, hsum, e⟩
      obtain ⟨rfl, rfl, rfl⟩ := hco hsum hs e
      have ha : a = 0 := (mul_eq_zero.1 k1).resolve_left hs.ne'
      rw [if_neg (fun q => absurd ha q.1.ne'), if_pos ⟨ha, pos_of_mul_pos_right k2 hs.le, pos_of_mul_pos_right k3 hs.le⟩]

/-- A ray from a point of the plane of a triangle that is not degenerate: 2 if it starts in the triangle, otherwise -1 if it is in the plane and meets one of the two
edges at the first corner, otherwise 0. -/
theorem ray_plane_exact_partial (np : V3 → V3 → V3 → V3) (hnp : ∀ a b c, degenerate a b c = false → det (np a b c) a b c ≠ 0) (pt d t1 t2 t3 : V3)
    (hp : det pt t1 t2 t3 = 0) (ht : degenerate t1 t2 t3 = false) (hy : d.y ≠ 0) (hz : d.z ≠ 0) :
    (rayTriangle np pt (addMul pt 1 d) d t1 t2 t3 false = 2 ↔ Interior pt t1 t2 t3 ∨ Border pt t1 t2 t3) ∧
    (rayTriangle np pt (addMul pt 1 d) d t1 t2 t3 false = -1 ↔ ¬(Interior pt t1 t2 t3 ∨ Border pt t1 t2 t3) ∧ det (addMul pt 1 d) t1 t2 t3 = 0 ∧
      ∃ p, OnRay p pt d ∧ (OnSegment p t1 t2 ∨ OnSegment p t1 t3)) := by
  obtain ⟨k1, k2, _⟩ := triangle_exact np pt t1 t2 t3 (hnp _ _ _ ht)
  obtain ⟨r2, r1⟩ := ray_segment_exact_partial np pt d t1 t2 hy hz (hnp _ _ _)
  obtain ⟨q2, q1⟩ := ray_segment_exact_partial np pt d t1 t3 hy hz (hnp _ _ _)
  have b2 : OnSegment pt t1 t2 → Border pt t1 t2 t3 := fun ⟨t, h0, h1, e⟩ =>
    ⟨1 - t, t, 0, by linarith, h0, le_rfl, by ring, Or.inr (Or.inr rfl), by rw [e]; refine V3.ext ?_ ?_ ?_ <;> simp only [addMul, sub, mix] <;> ring⟩
  have b3 : OnSegment pt t1 t3 → Border pt t1 t2 t3 := fun ⟨t, h0, h1, e⟩ =>
    ⟨1 - t, 0, t, by linarith, le_rfl, h0, by ring, Or.inr (Or.inl rfl), by rw [e]; refine V3.ext ?_ ?_ ?_ <;> simp only [addMul, sub, mix] <;> ring⟩
  have hor : pointTriangle np pt t1 t2 t3 false = 1 ∨ pointTriangle np pt t1 t2 t3 false = 2 ↔ Interior pt t1 t2 t3 ∨ Border pt t1 t2 t3 := by rw [k1, k2]
  unfold rayTriangle
  rw [ht]
  simp only [Bool.false_eq_true, if_false, orient3d, sgn_zero, hp, if_true]
  by_cases hin : Interior pt t1 t2 t3 ∨ Border pt t1 t2 t3
  · rw [if_pos (hor.2 hin)]
    exact ⟨⟨fun _ => hin, fun _ => rfl⟩, fun e => by simp at e, fun h => absurd hin h.1⟩
  · rw [if_neg fun h => hin (hor.1 h)]
    have h3 : pointTriangle np pt t1 t2 t3 false ≠ 3 := by
      unfold pointTriangle
      simp only [Bool.false_eq_true, false_and, if_false]
      intro e
      repeat' split at e
      all_goals omega
    rw [if_neg h3]
    have n2 : raySegment np pt (addMul pt 1 d) d t1 t2 ≠ 2 := fun e => hin (Or.inr (b2 (r2.1 e)))
    have n3 : raySegment np pt (addMul pt 1 d) d t1 t3 ≠ 2 := fun e => hin (Or.inr (b3 (q2.1 e)))
    have hor2 : raySegment np pt (addMul pt 1 d) d t1 t2 = 1 ∨ raySegment np pt (addMul pt 1 d) d t1 t3 = 1 ↔
        ∃ p, OnRay p pt d ∧ (OnSegment p t1 t2 ∨ OnSegment p t1 t3) := by
      rw [r1, q1]
      constructor
      · rintro (⟨_, p, h1, h2⟩ | ⟨_, p, h1, h2⟩)
        · exact ⟨p, h1, Or.inl h2⟩
        · exact ⟨p, h1, Or.inr h2⟩
      · rintro ⟨p, h1, h2 | h2⟩
        · exact Or.inl ⟨fun h => hin (Or.inr (b2 h)), p, h1, h2⟩
        · exact Or.inr ⟨fun h => hin (Or.inr (b3 h)), p, h1, h2⟩
    by_cases hpl : det (addMul pt 1 d) t1 t2 t3 = 0
    · rw [if_pos hpl, ← hor2]
      by_cases c1 : raySegment np pt (addMul pt 1 d) d t1 t2 = 1
      · rw [if_pos c1]
        exact ⟨⟨fun e => by simp at e, fun h => absurd h hin⟩, fun _ => ⟨hin, hpl, Or.inl c1⟩, fun _ => rfl⟩
      · rw [if_neg c1, if_neg n2]
        by_cases c2 : raySegment np pt (addMul pt 1 d) d t1 t3 = 1
        · rw [if_pos c2]
          exact ⟨⟨fun e => by simp at e, fun h => absurd h hin⟩, fun _ => ⟨hin, hpl, Or.inr c2⟩, fun _ => rfl⟩
        · rw [if_neg c2, if_neg n3]
          exact ⟨⟨fun e => by simp at e, fun h => absurd h hin⟩, fun e => by simp at e, fun h => absurd h.2.2 (not_or.2 ⟨c1, c2⟩)⟩
    · rw [if_neg hpl]
      exact ⟨⟨fun e => by simp at e, fun h => absurd h hin⟩, fun e => by simp at e, fun h => absurd h.2.1 hpl⟩

/-- For a degenerate triangle the result is 0 exactly when the ray and its start miss both segments at the first corner. -/
theorem ray_degenerate_exact_partial (np : V3 → V3 → V3 → V3) (hnp : ∀ a b c, degenerate a b c = false → det (np a b c) a b c ≠ 0) (pt d t1 t2 t3 : V3)
    (ht : degenerate t1 t2 t3 = true) (hy : d.y ≠ 0) (hz : d.z ≠ 0) (ho : Bool) :
    rayTriangle np pt (addMul pt 1 d) d t1 t2 t3 ho = 0 ↔ ¬∃ p, (p = pt ∨ OnRay p pt d) ∧ (OnSegment p t1 t2 ∨ OnSegment p t1 t3) := by
  obtain ⟨r2, r1⟩ := ray_segment_exact_partial np pt d t1 t2 hy hz (hnp _ _ _)
  obtain ⟨q2, q1⟩ := ray_segment_exact_partial np pt d t1 t3 hy hz (hnp _ _ _)
  unfold rayTriangle
  rw [ht]
  simp only [if_true]
  by_cases c1 : raySegment np pt (addMul pt 1 d) d t1 t2 = 1
  · rw [if_pos c1]
    obtain ⟨_, p, h1, h2⟩ := r1.1 c1
    exact ⟨fun e => by simp at e, fun h => absurd ⟨p, Or.inr h1, Or.inl h2⟩ h⟩
  · rw [if_neg c1]
    by_cases c2 : raySegment np pt (addMul pt 1 d) d t1 t2 = 2
    · rw [if_pos c2]
      exact ⟨fun e => by simp at e, fun h => absurd ⟨pt, Or.inl rfl, Or.inl (r2.1 c2)⟩ h⟩
    · rw [if_neg c2]
      by_cases c3 : raySegment np pt (addMul pt 1 d) d t1 t3 = 1
      · rw [if_pos c3]
        obtain ⟨_, p, h1, h2⟩ := q1.1 c3
        exact ⟨fun e => by simp at e, fun h => absurd ⟨p, Or.inr h1, Or.inr h2⟩ h⟩
      · rw [if_neg c3]
        by_cases c4 : raySegment np pt (addMul pt 1 d) d t1 t3 = 2
        · rw [if_pos c4]
          exact ⟨fun e => by simp at e, fun h => absurd ⟨pt, Or.inl rfl, Or.inr (q2.1 c4)⟩ h⟩
        · rw [if_neg c4]
          refine ⟨fun _ => ?_, fun _ => rfl⟩
          rintro ⟨p, rfl | h1, h2 | h2⟩
          · exact c2 (r2.2 h2)
          · exact c4 (q2.2 h2)
          · exact c1 (r1.2 ⟨fun h => c2 (r2.2 h), p, h1, h2⟩)
          · exact c3 (q1.2 ⟨fun h => c4 (q2.2 h), p, h1, h2⟩)

/-- `shoot_origin_ray_prism` and `shoot_origin_ray_hex` start with the ray along the first axis.  The ray meets the corner of a triangle in its plane, and the code
finds no intersection, with the first point outside of the plane that it tries. -/
theorem first_ray_violated : ∃ t1 t2 t3 : V3, degenerate t1 t2 t3 = false ∧ det ⟨1, 1, 1⟩ t1 t2 t3 ≠ 0 ∧
    (∃ p, OnRay p ⟨0, 0, 0⟩ ⟨1, 0, 0⟩ ∧ Border p t1 t2 t3) ∧
    rayTriangle (fun _ _ _ => ⟨1, 1, 1⟩) ⟨0, 0, 0⟩ ⟨1, 0, 0⟩ ⟨1, 0, 0⟩ t1 t2 t3 false = 0 := by
  refine ⟨⟨1, 0, 0⟩, ⟨2, 1, 0⟩, ⟨2, -1, 0⟩, by decide +kernel, by decide +kernel, ⟨⟨1, 0, 0⟩, ⟨1, by decide +kernel, by decide +kernel⟩,
    1, 0, 0, by decide +kernel, by decide +kernel, by decide +kernel, by decide +kernel, by decide +kernel, by decide +kernel⟩, by decide +kernel⟩

/-- `phi` vanishes exactly on the bilinear surface; in the tetrahedron of the corners exactly on the patch. -/
theorem phi_exact (x v0 v1 v2 v3 : V3) (hV : det v0 v1 v2 v3 ≠ 0) :
    (phi x v0 v1 v2 v3 = 0 ↔ ∃ u v, x = patch u v v0 v1 v2 v3) ∧
      ∀ a b c d : ℚ, 0 ≤ a → 0 ≤ b → 0 ≤ c → 0 ≤ d → a + b + c + d = 1 → x = mix4 a b c d v0 v1 v2 v3 →
        (phi x v0 v1 v2 v3 = 0 ↔ ∃ u v, 0 ≤ u ∧ u ≤ 1 ∧ 0 ≤ v ∧ v ≤ 1 ∧ x = patch u v v0 v1 v2 v3) := by
  have hW : funcG v3 v0 v1 v2 ≠ 0 := by rw [funcG_det]; exact neg_ne_zero.2 hV
  have hpatch : ∀ u v, phi (patch u v v0 v1 v2 v3) v0 v1 v2 v3 = 0 := fun u v => by
    rw [patch, phi_mix _ _ _ _ (by ring)]; ring
  have hback : ∀ {a b c d : ℚ}, a + b + c + d = 1 → phi (mix4 a b c d v0 v1 v2 v3) v0 v1 v2 v3 = 0 →
      mix4 a b c d v0 v1 v2 v3 = patch (b + c) (c + d) v0 v1 v2 v3 := by
    intro a b c d hs e
    rw [phi_mix _ _ _ _ hs] at e
    have h0 : a * c - b * d = 0 := (mul_eq_zero.1 e).resolve_right (pow_ne_zero 2 hW)
    have ha : a = 1 - b - c - d := by linarith
    have e1 : (1 - (b + c)) * (1 - (c + d)) = a := by rw [ha] at h0 ⊢; linear_combination -h0
    have e2 : (b + c) * (1 - (c + d)) = b := by rw [ha] at h0; linear_combination h0
    have e3 : (b + c) * (c + d) = c := by rw [ha] at h0; linear_combination -h0
    have e4 : (1 - (b + c)) * (c + d) = d := by rw [ha] at h0; linear_combination h0
    rw [patch, e1, e2, e3, e4]
  constructor
  · constructor
    · intro e
      obtain ⟨a, b, c, d, hs, rfl⟩ := coords4 x v0 v1 v2 v3 hW
      exact ⟨b + c, c + d, hback hs e⟩
    · rintro ⟨u, v, rfl⟩
      exact hpatch u v
  · rintro a b c d ha hb hc hd hs rfl
    constructor
    · intro e
      exact ⟨b + c, c + d, by linarith, by linarith, by linarith, by linarith, hback hs e⟩
    · rintro ⟨u, v, _, _, _, _, e⟩
      rw [e]
      exact hpatch u v

/-- `get_tet_phi` finds the same signs for all tetrahedra that are not flat. -/
theorem tet_phi_exact (v0 v1 v2 v3 : V3) (hV : det v0 v1 v2 v3 ≠ 0) : tetPhi v0 v1 v2 v3 = (1, -1) := by
  have hW : funcG v3 v0 v1 v2 ≠ 0 := by rw [funcG_det]; exact neg_ne_zero.2 hV
  have e : (⟨(v0.x + v2.x) / 2, (v0.y + v2.y) / 2, (v0.z + v2.z) / 2⟩ : V3) = mix4 (1 / 2) 0 (1 / 2) 0 v0 v1 v2 v3 := by
    refine V3.ext ?_ ?_ ?_ <;> simp only [mix4] <;> ring
  unfold tetPhi
  simp only
  rw [e, phi_mix _ _ _ _ (by norm_num)]
  exact if_pos (by have := pow_pos (abs_pos.2 hW) 2; rw [sq_abs] at this; norm_num; exact this)

/-- A point is found inside the tetrahedron exactly when it is in the interior, for both orientations of the corners. -/
theorem tet_exact (p v0 v1 v2 v3 : V3) (hV : det v0 v1 v2 v3 ≠ 0) :
    insideTet v0 v1 v2 v3 p = true ↔ ∃ a b c d : ℚ, 0 < a ∧ 0 < b ∧ 0 < c ∧ 0 < d ∧ a + b + c + d = 1 ∧ p = mix4 a b c d v0 v1 v2 v3 := by
  have hW : funcG v3 v0 v1 v2 ≠ 0 := by rw [funcG_det]; exact neg_ne_zero.2 hV
  constructor
  · intro e
    obtain ⟨a, b, c, d, hs, rfl⟩ := coords4 p v0 v1 v2 v3 hW
    obtain ⟨h1, h2, h3, h4⟩ := (insideTet_mix v0 v1 v2 v3 hV hs).1 e
    exact ⟨a, b, c, d, h1, h2, h3, h4, hs, rfl⟩
  · rintro ⟨a, b, c, d, h1, h2, h3, h4, hs, rfl⟩
    exact (insideTet_mix v0 v1 v2 v3 hV hs).2 ⟨h1, h2, h3, h4⟩

/-- The two-dimensional `orient2d` reads a third component of its vectors, which have two. -/
theorem orient2d_violated (a b : ℚ) : copy3 [a, b] = none := rfl

example : rayTriangle (fun _ _ _ => ⟨1, 1, 1⟩) ⟨0, 0, 0⟩ ⟨1, 0, 0⟩ ⟨1, 0, 0⟩ ⟨1, 1, 0⟩ ⟨1, -1, 1⟩ ⟨1, -1, -1⟩ true = 1 := by decide +kernel
example : rayTriangle (fun _ _ _ => ⟨1, 1, 1⟩) ⟨0, 0, 0⟩ ⟨1, 0, 0⟩ ⟨1, 0, 0⟩ ⟨1, 1, 0⟩ ⟨1, 0, 1⟩ ⟨1, 0, -1⟩ true = 3 := by decide +kernel
example : insideTet ⟨0, 0, 0⟩ ⟨1, 0, 0⟩ ⟨0, 1, 0⟩ ⟨0, 0, 1⟩ ⟨1 / 4, 1 / 4, 1 / 4⟩ = true ∧ det ⟨0, 0, 0⟩ ⟨1, 0, 0⟩ ⟨0, 1, 0⟩ ⟨0, 0, 1⟩ ≠ 0 := by decide +kernel
example : raySegment (fun _ _ _ => ⟨1, 1, 0⟩) ⟨0, 0, 0⟩ (addMul ⟨0, 0, 0⟩ 1 ⟨1, 1, 1⟩) ⟨1, 1, 1⟩ ⟨1, 2, 2⟩ ⟨3, 2, 2⟩ = 1 ∧
    det ⟨1, 1, 0⟩ ⟨1, 2, 2⟩ ⟨0, 0, 0⟩ (addMul ⟨0, 0, 0⟩ 1 ⟨1, 1, 1⟩) ≠ 0 := by decide +kernel
/-- A point outside of each plane exists: the end of the normal. -/
example : ∀ a b c, degenerate a b c = false → det (addMul a 1 (cross (sub a b) (sub a c))) a b c ≠ 0 := by
  intro a b c h e
  have hc : dot (cross (sub a b) (sub a c)) (cross (sub a b) (sub a c)) = 0 := by
    simp only [det, addMul, cross, sub] at e
    simp only [dot, cross, sub]
    linarith
  have h0 : cross (sub a b) (sub a c) = ⟨0, 0, 0⟩ := by
    generalize cross (sub a b) (sub a c) = v at hc
    simp only [dot] at hc
    exact V3.ext (by nlinarith [sq_nonneg v.x, sq_nonneg v.y, sq_nonneg v.z]) (by nlinarith [sq_nonneg v.x, sq_nonneg v.y, sq_nonneg v.z])
      (by nlinarith [sq_nonneg v.x, sq_nonneg v.y, sq_nonneg v.z])
  rw [(degenerate_cross a b c).2 h0] at h
  cases h
example : pointOnRay ⟨0, 0, 0⟩ ⟨1, 1, 1⟩ ⟨1, 1, 1⟩ ⟨2, 2, 2⟩ = 1 := by decide +kernel

end Verif.ExactGeo
