import Verif.Proof.DistanceGrad

/-!
Helper lemmas: intersection of an edge and a triangle, barrier, mollifier.
-/
namespace Verif.Dist

open Verif.Mat (Store)
open Verif.Elastic (IsPartials)

/-! ### Edge and triangle -/

theorem etIntersected_iff {e0 e1 t0 t1 t2 : Store ℝ} (h : detCols (sub t1 t0) (sub t2 t0) (sub e0 e1) ≠ 0) :
    etIntersected e0 e1 t0 t1 t2 = true ↔ Meet 3 (Segment e0 e1) (Triangle t0 t1 t2) := by
  have x0 : Mat.dot 3 (Mat.cross3 (sub t1 t0) (sub t2 t0)) (sub e0 t0) = detCols (sub t1 t0) (sub t2 t0) (sub e0 t0) := by
    simp only [detCols_eq, dot3, cross_0, cross_1, cross_2]; ring
  have x1 : Mat.dot 3 (Mat.cross3 (sub t1 t0) (sub t2 t0)) (sub e1 t0) = detCols (sub t1 t0) (sub t2 t0) (sub e0 t0) - detCols (sub t1 t0) (sub t2 t0) (sub e0 e1) := by
    simp only [detCols_eq, dot3, cross_0, cross_1, cross_2, sub]; ring
  have cramer : ∀ i < 3, detCols (sub e0 t0) (sub t2 t0) (sub e0 e1) * sub t1 t0 i + detCols (sub t1 t0) (sub e0 t0) (sub e0 e1) * sub t2 t0 i
      + detCols (sub t1 t0) (sub t2 t0) (sub e0 t0) * sub e0 e1 i = detCols (sub t1 t0) (sub t2 t0) (sub e0 e1) * sub e0 t0 i := by
    intro i hi
    interval_cases i <;> simp only [detCols_eq] <;> ring
  unfold etIntersected; simp only [x0, x1, h, if_false]
  constructor
  · intro k
    split_ifs at k with h1 h2
    obtain ⟨u0, v0, uv, s0, s1⟩ := h2
    refine ⟨_, ⟨_, s0, s1, rfl⟩, _, ⟨_, _, _, sub_nonneg.2 uv, u0, v0, by ring, rfl⟩, fun i hi => ?_⟩
    have c := cramer i hi
    generalize detCols (sub t1 t0) (sub t2 t0) (sub e0 e1) = D at *
    generalize detCols (sub e0 t0) (sub t2 t0) (sub e0 e1) = D1 at *
    generalize detCols (sub t1 t0) (sub e0 t0) (sub e0 e1) = D2 at *
    generalize detCols (sub t1 t0) (sub t2 t0) (sub e0 t0) = D3 at *
    simp only [sub] at c
    field_simp
    linear_combination -c
  · rintro ⟨x, ⟨r, r0, r1, rfl⟩, y, ⟨α, β, γ, a0, b0, c0, hs, rfl⟩, k⟩
    obtain rfl : α = 1 - β - γ := by linarith
    have k0 := k 0 (by norm_num); have k1 := k 1 (by norm_num); have k2 := k 2 (by norm_num)
    simp only [] at k0 k1 k2
    have q0 : e0 0 - t0 0 = β * (t1 0 - t0 0) + γ * (t2 0 - t0 0) + r * (e0 0 - e1 0) := by linear_combination k0
    have q1 : e0 1 - t0 1 = β * (t1 1 - t0 1) + γ * (t2 1 - t0 1) + r * (e0 1 - e1 1) := by linear_combination k1
    have q2 : e0 2 - t0 2 = β * (t1 2 - t0 2) + γ * (t2 2 - t0 2) + r * (e0 2 - e1 2) := by linear_combination k2
    have d1 : detCols (sub e0 t0) (sub t2 t0) (sub e0 e1) = β * detCols (sub t1 t0) (sub t2 t0) (sub e0 e1) := by
      simp only [detCols_eq, sub]; rw [q0, q1, q2]; ring
    have d2 : detCols (sub t1 t0) (sub e0 t0) (sub e0 e1) = γ * detCols (sub t1 t0) (sub t2 t0) (sub e0 e1) := by
      simp only [detCols_eq, sub]; rw [q0, q1, q2]; ring
    have d3 : detCols (sub t1 t0) (sub t2 t0) (sub e0 t0) = r * detCols (sub t1 t0) (sub t2 t0) (sub e0 e1) := by
      simp only [detCols_eq, sub]; rw [q0, q1, q2]; ring
    rw [d1, d2, d3]
    generalize detCols (sub t1 t0) (sub t2 t0) (sub e0 e1) = D at *
    have n1 : ¬(r * D * (r * D - D) > 0) := by
      have : r * D * (r * D - D) = -(r * (1 - r) * D ^ 2) := by ring
      rw [this]
      have := mul_nonneg (mul_nonneg r0 (sub_nonneg.2 r1)) (sq_nonneg D)
      linarith
    rw [if_neg n1, mul_div_cancel_right₀ _ h, mul_div_cancel_right₀ _ h, mul_div_cancel_right₀ _ h]
    rw [if_pos ⟨b0, c0, by linarith, r0, r1⟩]

/-! ### Barrier -/

theorem hasDerivAt_piece {F : ℝ → ℝ} {f a : ℝ → ℝ} {x d : ℝ} (hf : ∀ y, y < d → f y = F y) (h0 : ∀ y, d ≤ y → f y = 0)
    (h1 : x < d → HasDerivAt F (a x) x) (h2 : d < x → a x = 0) (h3 : x = d → HasDerivAt F 0 x ∧ F x = 0 ∧ a x = 0) : HasDerivAt f (a x) x := by
  rcases lt_trichotomy x d with h | h | h
  · refine (h1 h).congr_of_eventuallyEq ?_
    filter_upwards [Iio_mem_nhds h] with y hy using hf y hy
  · obtain ⟨k, k0, ka⟩ := h3 h
    rw [ka]
    have l : HasDerivWithinAt f 0 (Set.Iic x) x := by
      refine k.hasDerivWithinAt.congr_of_eventuallyEq ?_ (by rw [h0 x h.ge, k0])
      filter_upwards [self_mem_nhdsWithin] with y hy
      rcases (Set.mem_Iic.1 hy).eq_or_lt with e | e
      · rw [e, h0 x h.ge, k0]
      · exact hf y (h ▸ e)
    have r : HasDerivWithinAt f 0 (Set.Ici x) x := by
      refine (hasDerivWithinAt_const x _ (0 : ℝ)).congr_of_eventuallyEq ?_ (h0 x h.ge)
      filter_upwards [self_mem_nhdsWithin] with y hy
      exact h0 y (h ▸ Set.mem_Ici.1 hy)
    have := l.union r
    rw [Set.Iic_union_Ici] at this
    exact this.hasDerivAt Filter.univ_mem
  · rw [h2 h]
    refine (hasDerivAt_const x (0 : ℝ)).congr_of_eventuallyEq ?_
    filter_upwards [Ioi_mem_nhds h] with y hy using h0 y (le_of_lt hy)

theorem log_deriv {d2 dHat2 : ℝ} (h : 0 < d2) (hd : 0 < dHat2) : HasDerivAt (fun y => Real.log (y / dHat2)) (1 / d2) d2 := by
  have k := ((hasDerivAt_id d2).div_const dHat2).log (div_pos h hd).ne'
  refine k.congr_deriv ?_
  simp only [id]; field_simp

theorem barrier_deriv {d2 dHat2 : ℝ} (kappa : ℝ) (h : 0 < d2) (hd : 0 < dHat2) :
    HasDerivAt (fun y => barrier y dHat2 kappa) (barrierGradient d2 dHat2 kappa) d2 := by
  have F : HasDerivAt (fun y => -kappa * (y - dHat2) * (y - dHat2) * Real.log (y / dHat2))
      (kappa * ((d2 - dHat2) * Real.log (d2 / dHat2) * -2 - (d2 - dHat2) * (d2 - dHat2) / d2)) d2 := by
    have t := (hasDerivAt_id d2).sub_const dHat2
    have k := ((t.const_mul (-kappa)).mul t).mul (log_deriv h hd)
    refine k.congr_deriv ?_
    simp only [id, Pi.mul_apply]; field_simp; ring
  refine hasDerivAt_piece (a := fun x => barrierGradient x dHat2 kappa) (d := dHat2) (fun y hy => ?_) (fun y hy => ?_) (fun k => ?_) (fun k => ?_) (fun k => ?_)
    (F := fun y => -kappa * (y - dHat2) * (y - dHat2) * Real.log (y / dHat2))
  · unfold barrier; rw [if_neg (not_le.2 hy)]
  · unfold barrier; rw [if_pos hy]
  · unfold barrierGradient; rw [if_neg (not_le.2 k)]; exact F
  · unfold barrierGradient; rw [if_pos k.le]
  · subst k
    refine ⟨?_, by simp, by unfold barrierGradient; simp⟩
    convert F using 1; simp

theorem barrierGradient_deriv {d2 dHat2 : ℝ} (kappa : ℝ) (h : 0 < d2) (hd : 0 < dHat2) :
    HasDerivAt (fun y => barrierGradient y dHat2 kappa) (barrierHessian d2 dHat2 kappa) d2 := by
  have F : HasDerivAt (fun y => kappa * ((y - dHat2) * Real.log (y / dHat2) * -2 - (y - dHat2) * (y - dHat2) / y))
      (kappa * ((Real.log (d2 / dHat2) * -2 - (d2 - dHat2) * 4 / d2) + (d2 - dHat2) / d2 * ((d2 - dHat2) / d2))) d2 := by
    have t := (hasDerivAt_id d2).sub_const dHat2
    have k := (((t.mul (log_deriv h hd)).mul_const (-2)).sub ((t.mul t).div (hasDerivAt_id d2) h.ne')).const_mul kappa
    refine k.congr_deriv ?_
    simp only [id, Pi.mul_apply]; field_simp; ring
  refine hasDerivAt_piece (a := fun x => barrierHessian x dHat2 kappa) (d := dHat2) (fun y hy => ?_) (fun y hy => ?_) (fun k => ?_) (fun k => ?_) (fun k => ?_)
    (F := fun y => kappa * ((y - dHat2) * Real.log (y / dHat2) * -2 - (y - dHat2) * (y - dHat2) / y))
  · unfold barrierGradient; rw [if_neg (not_le.2 hy)]
  · unfold barrierGradient; rw [if_pos hy]
  · unfold barrierHessian; rw [if_neg (not_le.2 k)]; exact F
  · unfold barrierHessian; rw [if_pos k.le]
  · subst k
    refine ⟨?_, by simp, by unfold barrierHessian; simp⟩
    convert F using 1; simp [h.ne']

theorem barrier_signs {d2 dHat2 kappa : ℝ} (h : 0 < d2) (hk : 0 ≤ kappa) :
    0 ≤ barrier d2 dHat2 kappa ∧ barrierGradient d2 dHat2 kappa ≤ 0 ∧ 0 ≤ barrierHessian d2 dHat2 kappa := by
  unfold barrier barrierGradient barrierHessian
  split_ifs with h1
  · simp
  · have hd : 0 < dHat2 := by linarith [not_le.1 h1]
    have l : Real.log (d2 / dHat2) ≤ 0 := Real.log_nonpos (div_nonneg h.le hd.le) ((div_le_one hd).2 (not_le.1 h1).le)
    have t : d2 - dHat2 ≤ 0 := by linarith [not_le.1 h1]
    have tl := mul_nonneg_of_nonpos_of_nonpos t l
    have tt := div_nonneg (mul_nonneg_of_nonpos_of_nonpos t t) h.le
    have td : (d2 - dHat2) / d2 ≤ 0 := div_nonpos_of_nonpos_of_nonneg t h.le
    refine ⟨?_, ?_, ?_⟩
    · have : -kappa * (d2 - dHat2) * (d2 - dHat2) * Real.log (d2 / dHat2) = kappa * (d2 - dHat2) ^ 2 * -Real.log (d2 / dHat2) := by ring
      rw [this]; exact mul_nonneg (mul_nonneg hk (sq_nonneg _)) (by linarith)
    · exact mul_nonpos_of_nonneg_of_nonpos hk (by linarith)
    · have e : (d2 - dHat2) * 4 / d2 = 4 * ((d2 - dHat2) / d2) := by ring
      simp only [e]
      exact mul_nonneg hk (by nlinarith [mul_self_nonneg ((d2 - dHat2) / d2)])

theorem barrier_tendsto {dHat2 kappa : ℝ} (hd : 0 < dHat2) (hk : 0 < kappa) :
    Filter.Tendsto (fun d2 => barrier d2 dHat2 kappa) (nhdsWithin 0 (Set.Ioi 0)) Filter.atTop := by
  have l : Filter.Tendsto (fun d2 => Real.log (d2 / dHat2)) (nhdsWithin 0 (Set.Ioi 0)) Filter.atBot := by
    refine Real.tendsto_log_nhdsGT_zero.comp ?_
    refine tendsto_nhdsWithin_iff.2 ⟨?_, ?_⟩
    · have : Filter.Tendsto (fun d2 : ℝ => d2 / dHat2) (nhds 0) (nhds (0 / dHat2)) := (continuous_id.div_const dHat2).tendsto 0
      rw [zero_div] at this
      exact this.mono_left nhdsWithin_le_nhds
    · filter_upwards [self_mem_nhdsWithin] with y hy using div_pos hy hd
  have c : Filter.Tendsto (fun d2 : ℝ => kappa * (d2 - dHat2) ^ 2) (nhdsWithin 0 (Set.Ioi 0)) (nhds (kappa * dHat2 ^ 2)) := by
    have : Continuous fun d2 : ℝ => kappa * (d2 - dHat2) ^ 2 := by fun_prop
    have := this.tendsto 0
    rw [zero_sub, neg_sq] at this
    exact this.mono_left nhdsWithin_le_nhds
  have m := c.pos_mul_atTop (mul_pos hk (pow_pos hd 2)) (Filter.tendsto_neg_atBot_atTop.comp l)
  refine m.congr' ?_
  have : Set.Ioo (0 : ℝ) dHat2 ∈ nhdsWithin (0 : ℝ) (Set.Ioi 0) := Ioo_mem_nhdsGT hd
  filter_upwards [this] with y hy
  unfold barrier; rw [if_neg (not_le.2 hy.2)]
  simp only [Function.comp]; ring

/-! ### Mollifier -/

theorem cn_partials (x : Store ℝ) : IsPartials 12 (fun x => cn2 (point 3 x 0) (point 3 x 1) (point 3 x 2) (point 3 x 3)) x (gCn x) := by
  simp only [fCn_eq]
  exact gCn_partials x (by simp [dCn0, dCn1, dCn2])

open Classical in
theorem eem_deriv {eps : ℝ} (he : 0 < eps) (c : ℝ) : HasDerivAt (fun c => if c < eps then eem c eps else 1) (if c < eps then gEem c eps else 0) c := by
  have F : ∀ c, HasDerivAt (fun c => eem c eps - 1) (gEem c eps) c := by
    intro c
    have q := (hasDerivAt_id c).div_const eps
    have k := ((q.neg.add_const 2).mul q).sub_const 1
    refine k.congr_deriv ?_
    unfold gEem; simp only [id, Pi.neg_apply]; field_simp; ring
  have p : HasDerivAt (fun c => (if c < eps then eem c eps else 1) - 1) (if c < eps then gEem c eps else 0) c := by
    refine hasDerivAt_piece (a := fun c => if c < eps then gEem c eps else 0) (d := eps) (F := fun c => eem c eps - 1)
      (fun y hy => ?_) (fun y hy => ?_) (fun k => ?_) (fun k => ?_) (fun k => ?_)
    · simp only [if_pos hy]
    · simp only [if_neg (not_lt.2 hy), sub_self]
    · simp only [if_pos k]; exact F c
    · simp only [if_neg (not_lt.2 k.le)]
    · subst k
      refine ⟨?_, ?_, by simp⟩
      · convert F c using 1; unfold gEem; field_simp; ring
      · unfold eem; rw [div_self he.ne']; norm_num
  have := p.add_const 1
  simpa using this

theorem mollifier_partials (x : Store ℝ) {eps : ℝ} (he : 0 < eps) :
    IsPartials 12 (fun x => mollifier (point 3 x 0) (point 3 x 1) (point 3 x 2) (point 3 x 3) eps) x (mollifierGrad x eps) := by
  intro i hi
  have c := cn_partials x i hi
  have hx := upd_self x i
  have m := eem_deriv he (cn2 (point 3 x 0) (point 3 x 1) (point 3 x 2) (point 3 x 3))
  have hc : cn2 (point 3 x 0) (point 3 x 1) (point 3 x 2) (point 3 x 3)
      = (fun x => cn2 (point 3 x 0) (point 3 x 1) (point 3 x 2) (point 3 x 3)) (Mat.upd x i (x i)) := by rw [hx]
  rw [hc] at m
  have k := HasDerivAt.comp (x i) m c
  refine k.congr_deriv ?_
  rw [← hc]; unfold mollifierGrad
  split_ifs <;> simp

/-! ### Two points -/

theorem pp_partials (n : Nat) (a b : Store ℝ) : IsPartials n (fun a => dist2Pp n a b) a (gPp a b).1 ∧ IsPartials n (fun b => dist2Pp n a b) b (gPp a b).2 := by
  constructor
  all_goals
    intro k hk
    simp only [dist2Pp_eq]; unfold distSq
  · have d : ∀ i : Fin n, HasDerivAt (fun y => (Mat.upd a k y i - b i) ^ 2) (if (i : Nat) = k then 2 * (a k - b k) else 0) (a k) := by
      intro i
      unfold Mat.upd
      split_ifs with e
      · have := ((hasDerivAt_id (a k)).sub_const (b i)).fun_pow 2
        refine this.congr_deriv ?_
        rw [e]; simp
      · exact hasDerivAt_const _ _
    refine (HasDerivAt.fun_sum fun i _ => d i).congr_deriv ?_
    rw [Finset.sum_eq_single (⟨k, hk⟩ : Fin n)]
    · simp [gPp]
    · intro i _ hi; rw [if_neg]; intro e; exact hi (Fin.ext e)
    · intro h; exact absurd (Finset.mem_univ _) h
  · have d : ∀ i : Fin n, HasDerivAt (fun y => (a i - Mat.upd b k y i) ^ 2) (if (i : Nat) = k then -(2 * (a k - b k)) else 0) (b k) := by
      intro i
      unfold Mat.upd
      split_ifs with e
      · have := ((hasDerivAt_id (b k)).const_sub (a i)).fun_pow 2
        refine this.congr_deriv ?_
        rw [e]; simp
      · exact hasDerivAt_const _ _
    refine (HasDerivAt.fun_sum fun i _ => d i).congr_deriv ?_
    rw [Finset.sum_eq_single (⟨k, hk⟩ : Fin n)]
    · simp [gPp]
    · intro i _ hi; rw [if_neg]; intro e; exact hi (Fin.ext e)
    · intro h; exact absurd (Finset.mem_univ _) h

end Verif.Dist
