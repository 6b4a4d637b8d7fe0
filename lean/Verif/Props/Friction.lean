import Verif.Proof.Friction

/-! Claim C85: smoothed friction and the tangent space of contacts. -/
namespace Verif.Friction

open Verif.Rotation (V cross dot3 nsq3 unit3)

/-- The potential has the derivative `f1 / 2` with respect to the squared length, at zero and at the threshold too. -/
theorem potential_deriv {e : ℝ} (he : 0 < e) {x2 : ℝ} (h : 0 ≤ x2) : HasDerivAt (fun y => f0 y e) (f1 x2 e / 2) x2 := by
  have he2 : 0 < e * e := mul_pos he he
  rcases lt_trichotomy x2 (e * e) with hl | hl | hl
  · rw [f1, if_neg (not_le.2 hl)]
    refine (inner_deriv e x2 h).congr_of_eventuallyEq ?_
    filter_upwards [eventually_lt_nhds hl] with y hy
    rw [f0, if_neg (not_le.2 hy)]
  · subst hl
    rw [f1, if_pos le_rfl]
    have hs : Real.sqrt (e * e) = e := Real.sqrt_mul_self he.le
    have hin : HasDerivWithinAt (fun y => f0 y e) (1 / Real.sqrt (e * e) / 2) (Set.Iic (e * e)) (e * e) := by
      have h1 := (inner_deriv e (e * e) he2.le).hasDerivWithinAt (s := Set.Iic (e * e))
      have h2 : (-Real.sqrt (e * e) + 2 * e) / (e * e) / 2 = 1 / Real.sqrt (e * e) / 2 := by rw [hs]; field_simp; ring
      rw [h2] at h1
      refine h1.congr (fun y hy => ?_) ?_
      · rcases eq_or_lt_of_le (Set.mem_Iic.1 hy) with h' | h'
        · rw [h', f0, if_pos le_rfl, hs]; field_simp; ring
        · rw [f0, if_neg (not_le.2 h')]
      · rw [f0, if_pos le_rfl, hs]; field_simp; ring
    have hout : HasDerivWithinAt (fun y => f0 y e) (1 / Real.sqrt (e * e) / 2) (Set.Ici (e * e)) (e * e) := by
      refine ((outer_deriv he2).hasDerivWithinAt (s := Set.Ici (e * e))).congr (fun y hy => ?_) ?_
      · rw [f0, if_pos (Set.mem_Ici.1 hy)]
      · rw [f0, if_pos le_rfl]
    have := hin.union hout
    rw [Set.Iic_union_Ici] at this
    exact this.hasDerivAt Filter.univ_mem
  · rw [f1, if_pos hl.le]
    refine (outer_deriv (he2.trans hl)).congr_of_eventuallyEq ?_
    filter_upwards [eventually_gt_nhds hl] with y hy
    rw [f0, if_pos hy.le]

/-- So `f1` times the relative displacement is the gradient of the potential of its length. -/
theorem potential_gradient {e : ℝ} (he : 0 < e) (u w : V 3) :
    HasDerivAt (fun s => f0 (nsq3 fun i => u i + s * w i) e) (f1 (nsq3 u) e * dot3 u w) 0 := by
  have hq : HasDerivAt (fun s : ℝ => nsq3 fun i => u i + s * w i) (2 * dot3 u w) 0 := by
    have e1 : (fun s : ℝ => nsq3 fun i => u i + s * w i) = fun s => nsq3 u + 2 * dot3 u w * s + nsq3 w * (s * s) := by
      funext s; simp only [nsq3, dot3]; ring
    rw [e1]
    have h1 := (((hasDerivAt_id (0 : ℝ)).const_mul (2 * dot3 u w)).const_add (nsq3 u)).add (((hasDerivAt_id (0 : ℝ)).mul (hasDerivAt_id (0 : ℝ))).const_mul (nsq3 w))
    refine h1.congr_deriv ?_
    simp
  have h0 : (fun s : ℝ => nsq3 fun i => u i + s * w i) 0 = nsq3 u := by simp
  have hf := potential_deriv he (nsq3_nonneg u)
  rw [← h0] at hf
  refine (hf.comp (0 : ℝ) hq).congr_deriv ?_
  rw [h0]; ring

/-- The friction force relative to the normal force: zero at rest, growing with the displacement up to the threshold, one from there on; the potential is within a third of the threshold
above the length. -/
theorem friction_bounds {e x : ℝ} (he : 0 < e) (hx : 0 ≤ x) :
    0 ≤ f1 (x * x) e * x ∧ f1 (x * x) e * x ≤ 1 ∧ (e ≤ x ↔ f1 (x * x) e * x = 1) ∧
    (∀ y, x < y → y ≤ e → f1 (x * x) e * x < f1 (y * y) e * y) ∧ x ≤ f0 (x * x) e ∧ f0 (x * x) e ≤ x + e / 3 := by
  have val : ∀ y, 0 ≤ y → (e ≤ y → f1 (y * y) e * y = 1 ∧ f0 (y * y) e = y) ∧
      (y < e → f1 (y * y) e * y = (2 * e * y - y * y) / (e * e) ∧ f0 (y * y) e = y * y * (-y / 3 + e) / (e * e) + e / 3) := by
    intro y hy
    have hs : Real.sqrt (y * y) = y := Real.sqrt_mul_self hy
    refine ⟨fun h => ?_, fun h => ?_⟩
    · have : y * y ≥ e * e := by nlinarith
      have hp : 0 < y := by linarith
      rw [f1, f0, if_pos this, if_pos this, hs]
      exact ⟨by field_simp, rfl⟩
    · have : ¬ y * y ≥ e * e := by rw [ge_iff_le, not_le]; nlinarith
      rw [f1, f0, if_neg this, if_neg this, hs]
      exact ⟨by field_simp; ring, rfl⟩
  have he2 : 0 < e * e := mul_pos he he
  have lin : ∀ y, (2 * e * y - y * y) / (e * e) = 1 - ((e - y) / e) ^ 2 := fun y => by field_simp; ring
  obtain ⟨v1, v2⟩ := val x hx
  have mono : ∀ y, x < y → y ≤ e → f1 (x * x) e * x < f1 (y * y) e * y := by
    intro y hxy hy
    have hy0 : 0 ≤ y := by linarith
    rw [(v2 (by linarith)).1, lin]
    have hy' : f1 (y * y) e * y = 1 - ((e - y) / e) ^ 2 := by
      rcases eq_or_lt_of_le hy with h | h
      · rw [((val y hy0).1 h.ge).1, h]; simp
      · rw [((val y hy0).2 h).1, lin]
    rw [hy']
    have h1 : (e - y) / e < (e - x) / e := by gcongr
    have h2 : 0 ≤ (e - y) / e := div_nonneg (by linarith) he.le
    nlinarith
  rcases le_or_gt e x with h | h
  · obtain ⟨a, b⟩ := v1 h
    refine ⟨by rw [a]; norm_num, a.le, ⟨fun _ => a, fun _ => h⟩, mono, b.ge, by rw [b]; linarith⟩
  · obtain ⟨a, b⟩ := v2 h
    have hpos : 0 < (e - x) / e := div_pos (by linarith) he
    have hle : (e - x) / e ≤ 1 := by rw [div_le_one he]; linarith
    rw [lin] at a
    refine ⟨by rw [a]; nlinarith, by rw [a]; nlinarith, ⟨fun h' => absurd h' (not_le.2 h), fun h' => ?_⟩, mono, ?_, ?_⟩
    · rw [a] at h'; nlinarith
    · rw [b]
      have : x * x * (-x / 3 + e) / (e * e) + e / 3 - x = (e - x) ^ 3 / (3 * (e * e)) := by field_simp; ring
      have : 0 ≤ (e - x) ^ 3 / (3 * (e * e)) := div_nonneg (pow_nonneg (by linarith) 3) (by linarith)
      linarith
    · rw [b]
      have : x + e / 3 - (x * x * (-x / 3 + e) / (e * e) + e / 3) = x * (e * (e - x) + x * x / 3) / (e * e) := by field_simp; ring
      have : 0 ≤ x * (e * (e - x) + x * x / 3) / (e * e) :=
        div_nonneg (mul_nonneg hx (add_nonneg (mul_nonneg he.le (by linarith)) (by positivity))) he2.le
      linarith

/-- `f2_SF_term` is the derivative of `f1` by the length below the threshold.  Missing: above the threshold. -/
theorem second_deriv_partial {e x : ℝ} (h0 : 0 < x) (h1 : x < e) : HasDerivAt (fun y => f1 (y * y) e) (f2 (x * x) e) x := by
  have hd : HasDerivAt (fun y : ℝ => (-y + 2 * e) / (e * e)) (-1 / (e * e)) x := (((hasDerivAt_id x).neg.add_const (2 * e)).div_const (e * e))
  refine hd.congr_of_eventuallyEq ?_
  filter_upwards [eventually_gt_nhds h0, eventually_lt_nhds h1] with y hy hy1
  rw [f1, if_neg (by rw [ge_iff_le, not_le]; nlinarith), Real.sqrt_mul_self hy.le]

/-- Above the threshold, where the comment in the code says it is the same, it is not. -/
theorem second_deriv_violated {e x : ℝ} (he : 0 < e) (h1 : e < x) : ¬ HasDerivAt (fun y => f1 (y * y) e) (f2 (x * x) e) x := by
  intro h
  have hx : 0 < x := by linarith
  have hd : HasDerivAt (fun y : ℝ => 1 / y) (-(x ^ 2)⁻¹) x := by
    have := hasDerivAt_inv hx.ne'
    simpa only [one_div] using this
  have hd2 : HasDerivAt (fun y => f1 (y * y) e) (-(x ^ 2)⁻¹) x := by
    refine hd.congr_of_eventuallyEq ?_
    filter_upwards [eventually_gt_nhds h1] with y hy
    rw [f1, if_pos (by nlinarith), Real.sqrt_mul_self (by linarith)]
  have := h.unique hd2
  rw [f2] at this
  have h2 : e * e < x ^ 2 := by nlinarith
  have h3 : (x ^ 2)⁻¹ < (e * e)⁻¹ := by
    rw [inv_lt_inv₀ (by positivity) (by positivity)]; exact h2
  have h4 : -1 / (e * e) = -(e * e)⁻¹ := by ring
  rw [h4] at this
  linarith

/-- Two points: the basis is tangent to the sphere through the points. -/
theorem pp_basis {p0 p1 : V 3} {i : Fin 3} (h : p0 i ≠ p1 i) : Tangent (ppBasis p0 p1) (ppRel ![p0, p1]) := by
  have hv : 0 < nsq3 (sub p1 p0) := nsq3_pos (i := i) (sub_ne_zero.2 (Ne.symm h))
  have hrel : ppRel ![p0, p1] = fun d => -sub p1 p0 d := by funext d; simp [ppRel, sub]
  rw [hrel]
  unfold ppBasis
  generalize sub p1 p0 = v at *
  simp only
  set xc : V 3 := ![0, -v 2, v 1] with hx
  set yc : V 3 := ![v 2, 0, -v 0] with hy
  have nx : nsq3 xc = v 1 * v 1 + v 2 * v 2 := by simp only [nsq3, hx, Matrix.cons_val_zero, Matrix.cons_val_one, Matrix.cons_val]; ring
  have ny : nsq3 yc = v 0 * v 0 + v 2 * v 2 := by simp only [nsq3, hy, Matrix.cons_val_zero, Matrix.cons_val_one, Matrix.cons_val]; ring
  have gen : ∀ c : V 3, 0 < nsq3 c → dot3 v c = 0 → Tangent (columns (unit3 c) (unit3 (cross v c))) fun d => -v d := by
    intro c hc hvc
    refine tangent_of hc ?_ ?_ ?_ ?_
    · rw [nsq_cross, hvc]; nlinarith [mul_pos hv hc]
    · simp only [cross, dot3, Matrix.cons_val_zero, Matrix.cons_val_one, Matrix.cons_val]; ring
    · simp only [dot3] at *; linear_combination -hvc
    · simp only [cross, dot3, Matrix.cons_val_zero, Matrix.cons_val_one, Matrix.cons_val]; ring
  by_cases hc : nsq3 xc > nsq3 yc
  · rw [if_pos hc]
    refine gen xc (lt_of_le_of_lt (nsq3_nonneg yc) hc) ?_
    simp only [dot3, hx, Matrix.cons_val_zero, Matrix.cons_val_one, Matrix.cons_val]; ring
  · rw [if_neg hc]
    refine gen yc ?_ ?_
    · rw [gt_iff_lt, not_lt, nx, ny] at hc
      rw [ny]
      simp only [nsq3] at hv
      nlinarith [mul_self_nonneg (v 0), mul_self_nonneg (v 1), mul_self_nonneg (v 2)]
    · simp only [dot3, hy, Matrix.cons_val_zero, Matrix.cons_val_one, Matrix.cons_val]; ring

/-- Point and edge: the basis is tangent, that is, at a right angle to the difference of the closest points. -/
theorem pe_basis {v0 v1 v2 : V 3} (h : Apart (sub v2 v1) (sub v0 v1)) : Tangent (peBasis v0 v1 v2) (peRel ![v0, v1, v2] (peClosest v0 v1 v2)) := by
  obtain ⟨hc, ha, -⟩ := apart_pos h
  refine tangent_of ha hc ?_ (pe_normal ha) ?_
  · simp only [cross, dot3, Matrix.cons_val_zero, Matrix.cons_val_one, Matrix.cons_val]; ring
  · simp only [cross, dot3, sub, peRel, Matrix.cons_val_zero, Matrix.cons_val_one, Matrix.cons_val]; ring

theorem pt_basis {v0 v1 v2 v3 : V 3} (h : Apart (sub v2 v1) (sub v3 v1)) :
    Tangent (ptBasis v0 v1 v2 v3) (ptRel ![v0, v1, v2, v3] (ptClosest v0 v1 v2 v3 0) (ptClosest v0 v1 v2 v3 1)) := by
  obtain ⟨hc, ha, -⟩ := apart_pos h
  obtain ⟨n1, n2⟩ := pt_normal (v0 := v0) hc
  refine tangent_of ha (cross_cross_pos h) ?_ n1 ?_
  · simp only [cross, dot3, Matrix.cons_val_zero, Matrix.cons_val_one, Matrix.cons_val]; ring
  · generalize ptRel ![v0, v1, v2, v3] (ptClosest v0 v1 v2 v3 0) (ptClosest v0 v1 v2 v3 1) = w at *
    generalize sub v2 v1 = a at *
    generalize sub v3 v1 = b at *
    have : dot3 (cross (cross a b) a) w = dot3 a a * dot3 b w - dot3 a b * dot3 a w := by
      simp only [cross, dot3, Matrix.cons_val_zero, Matrix.cons_val_one, Matrix.cons_val]; ring
    rw [this, n1, n2]; ring

theorem ee_basis {v0 v1 v2 v3 : V 3} (h : Apart (sub v1 v0) (sub v3 v2)) :
    Tangent (eeBasis v0 v1 v2 v3) (eeRel ![v0, v1, v2, v3] (eeClosest v0 v1 v2 v3 0) (eeClosest v0 v1 v2 v3 1)) := by
  obtain ⟨hc, ha, -⟩ := apart_pos h
  obtain ⟨n1, n2⟩ := ee_normal hc
  refine tangent_of ha (cross_cross_pos h) ?_ n1 ?_
  · simp only [cross, dot3, Matrix.cons_val_zero, Matrix.cons_val_one, Matrix.cons_val]; ring
  · generalize eeRel ![v0, v1, v2, v3] (eeClosest v0 v1 v2 v3 0) (eeClosest v0 v1 v2 v3 1) = w at *
    generalize sub v1 v0 = a at *
    generalize sub v3 v2 = b at *
    have : dot3 (cross (cross a b) a) w = dot3 a a * dot3 b w - dot3 a b * dot3 a w := by
      simp only [cross, dot3, Matrix.cons_val_zero, Matrix.cons_val_one, Matrix.cons_val]; ring
    rw [this, n1, n2]; ring

/-- The parameters are those of the closest points on the lines and the plane. -/
theorem pe_closest {v0 v1 v2 : V 3} {i : Fin 3} (h : v1 i ≠ v2 i) (y : ℝ) :
    nsq3 (peRel ![v0, v1, v2] (peClosest v0 v1 v2)) ≤ nsq3 (peRel ![v0, v1, v2] y) := by
  have hn := pe_normal (v0 := v0) (nsq3_pos (a := sub v2 v1) (i := i) (sub_ne_zero.2 (Ne.symm h)))
  generalize peClosest v0 v1 v2 = z at *
  have : nsq3 (peRel ![v0, v1, v2] y) = nsq3 (peRel ![v0, v1, v2] z) + (y - z) ^ 2 * nsq3 (sub v2 v1) := by
    simp only [dot3, nsq3, sub, peRel, Matrix.cons_val_zero, Matrix.cons_val_one, Matrix.cons_val] at *
    linear_combination -2 * (y - z) * hn
  rw [this]
  have := mul_nonneg (sq_nonneg (y - z)) (nsq3_nonneg (sub v2 v1))
  linarith

theorem pt_closest {v0 v1 v2 v3 : V 3} (h : Apart (sub v2 v1) (sub v3 v1)) (y1 y2 : ℝ) :
    nsq3 (ptRel ![v0, v1, v2, v3] (ptClosest v0 v1 v2 v3 0) (ptClosest v0 v1 v2 v3 1)) ≤ nsq3 (ptRel ![v0, v1, v2, v3] y1 y2) := by
  obtain ⟨n1, n2⟩ := pt_normal (v0 := v0) (apart_pos h).1
  generalize ptClosest v0 v1 v2 v3 = z at *
  have : nsq3 (ptRel ![v0, v1, v2, v3] y1 y2) = nsq3 (ptRel ![v0, v1, v2, v3] (z 0) (z 1)) +
      nsq3 fun d => (y1 - z 0) * sub v2 v1 d + (y2 - z 1) * sub v3 v1 d := by
    simp only [dot3, nsq3, sub, ptRel, Matrix.cons_val_zero, Matrix.cons_val_one, Matrix.cons_val] at *
    linear_combination -2 * (y1 - z 0) * n1 - 2 * (y2 - z 1) * n2
  rw [this]
  linarith [nsq3_nonneg fun d => (y1 - z 0) * sub v2 v1 d + (y2 - z 1) * sub v3 v1 d]

theorem ee_closest {v0 v1 v2 v3 : V 3} (h : Apart (sub v1 v0) (sub v3 v2)) (y1 y2 : ℝ) :
    nsq3 (eeRel ![v0, v1, v2, v3] (eeClosest v0 v1 v2 v3 0) (eeClosest v0 v1 v2 v3 1)) ≤ nsq3 (eeRel ![v0, v1, v2, v3] y1 y2) := by
  obtain ⟨n1, n2⟩ := ee_normal (apart_pos h).1
  generalize eeClosest v0 v1 v2 v3 = z at *
  have : nsq3 (eeRel ![v0, v1, v2, v3] y1 y2) = nsq3 (eeRel ![v0, v1, v2, v3] (z 0) (z 1)) +
      nsq3 fun d => (y1 - z 0) * sub v1 v0 d - (y2 - z 1) * sub v3 v2 d := by
    simp only [dot3, nsq3, sub, eeRel, Matrix.cons_val_zero, Matrix.cons_val_one, Matrix.cons_val] at *
    linear_combination 2 * (y1 - z 0) * n1 - 2 * (y2 - z 1) * n2
  rw [this]
  linarith [nsq3_nonneg fun d => (y1 - z 0) * sub v1 v0 d - (y2 - z 1) * sub v3 v2 d]

/-- Forces: the map to the points does the same work as the tangential force on the relative displacement, the matrices are the matrices of it, the forces add up to zero, and a common
displacement of all points is no relative displacement. -/
theorem pp_dual (b : Basis) : Dual b ppRel (fun t => ppMesh t b) (ppTT b) := by
  refine ⟨fun t dx => ?_, fun r dx => ?_, fun t d => ?_, fun x => ?_⟩
  · simp only [Fin.sum_univ_two, Fin.sum_univ_three, ppMesh, ppRel, mulVec, Matrix.cons_val_zero, Matrix.cons_val_one]; ring
  · simp only [Fin.sum_univ_two, Fin.sum_univ_three, ppTT, ppRel, Matrix.cons_val_zero, Matrix.cons_val_one]; ring
  · simp only [Fin.sum_univ_two, ppMesh, Matrix.cons_val_zero, Matrix.cons_val_one]; ring
  · funext d; simp [ppRel]

theorem pe_dual (b : Basis) (y : ℝ) : Dual b (fun dx => peRel dx y) (fun t => peMesh t b y) (peTT b y) := by
  refine ⟨fun t dx => ?_, fun r dx => ?_, fun t d => ?_, fun x => ?_⟩
  · simp only [Fin.sum_univ_two, Fin.sum_univ_three, peMesh, peRel, mulVec, Matrix.cons_val_zero, Matrix.cons_val_one, Matrix.cons_val]; ring
  · simp only [Fin.sum_univ_three, peTT, peRel, Matrix.cons_val_zero, Matrix.cons_val_one, Matrix.cons_val]; ring
  · simp only [Fin.sum_univ_three, peMesh, Matrix.cons_val_zero, Matrix.cons_val_one, Matrix.cons_val]; ring
  · funext d; simp [peRel]

theorem pt_dual (b : Basis) (b1 b2 : ℝ) : Dual b (fun dx => ptRel dx b1 b2) (fun t => ptMesh t b b1 b2) (ptTT b b1 b2) := by
  refine ⟨fun t dx => ?_, fun r dx => ?_, fun t d => ?_, fun x => ?_⟩
  · simp only [Fin.sum_univ_two, Fin.sum_univ_three, Fin.sum_univ_four, ptMesh, ptRel, mulVec, Matrix.cons_val_zero, Matrix.cons_val_one, Matrix.cons_val]; ring
  · simp only [Fin.sum_univ_three, Fin.sum_univ_four, ptTT, ptRel, Matrix.cons_val_zero, Matrix.cons_val_one, Matrix.cons_val]; ring
  · simp only [Fin.sum_univ_four, ptMesh, Matrix.cons_val_zero, Matrix.cons_val_one, Matrix.cons_val]; ring
  · funext d; simp [ptRel]

theorem ee_dual (b : Basis) (g1 g2 : ℝ) : Dual b (fun dx => eeRel dx g1 g2) (fun t => eeMesh t b g1 g2) (eeTT b g1 g2) := by
  refine ⟨fun t dx => ?_, fun r dx => ?_, fun t d => ?_, fun x => ?_⟩
  · simp only [Fin.sum_univ_two, Fin.sum_univ_three, Fin.sum_univ_four, eeMesh, eeRel, mulVec, Matrix.cons_val_zero, Matrix.cons_val_one, Matrix.cons_val]; ring
  · simp only [Fin.sum_univ_three, Fin.sum_univ_four, eeTT, eeRel, Matrix.cons_val_zero, Matrix.cons_val_one, Matrix.cons_val]; ring
  · simp only [Fin.sum_univ_four, eeMesh, Matrix.cons_val_zero, Matrix.cons_val_one, Matrix.cons_val]; ring
  · funext d; simp [eeRel]

/-! ### The hypotheses are met -/

example : Apart (sub ![1, 0, 0] ![0, 0, 0]) (sub ![0, 1, 1] ![0, 0, 1]) := ⟨2, by simp [cross, sub]⟩

example : Tangent (ppBasis ![0, 0, 0] ![1, 2, 3]) (ppRel ![![0, 0, 0], ![1, 2, 3]]) := pp_basis (i := 0) (by simp)

end Verif.Friction
