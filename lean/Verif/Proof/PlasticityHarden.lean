import Verif.Proof.PlasticityClay

/-! The sign of the hardening of the Cam-Clay projection. -/
namespace Verif.Plastic

/-- The point of the ellipse on the line from the centre to the trial point is between the two. -/
theorem fake_between {M beta p0 p q : ℝ} (hb : 0 ≤ beta) (hp0 : 0 ≤ p0) (hq : 0 < q)
    (hy : 0 < (1 + 2 * beta) * q ^ 2 + M ^ 2 * (p + beta * p0) * (p - p0)) :
    ∃ t, 0 ≤ t ∧ t < 1 ∧
      (let pCenter := p0 * ((1 - beta) * 0.5)
       let len := Real.sqrt ((pCenter - p) * (pCenter - p) + -q * -q)
       let d0 := (pCenter - p) / len
       let d1 := -q / len
       let C := M * M * (pCenter + beta * p0) * (pCenter - p0)
       let B := M * M * d0 * (pCenter + pCenter - p0 + beta * p0)
       let A := M * M * d0 * d0 + (1 + beta + beta) * d1 * d1
       let deltaSqrt := Real.sqrt (B * B - 4 * A * C)
       (-B + deltaSqrt) / (A + A) * d0 = -(t * (p - pCenter)) ∧ (-B - deltaSqrt) / (A + A) * d0 = t * (p - pCenter)) := by
  simp only
  set c := p0 * ((1 - beta) * 0.5) with hc
  set len := Real.sqrt ((c - p) * (c - p) + -q * -q) with hlen
  have hN2 : len ^ 2 = (c - p) ^ 2 + q ^ 2 := by
    rw [hlen, Real.sq_sqrt (by nlinarith [mul_self_nonneg (c - p), mul_self_nonneg q])]; ring
  have hN : 0 < len := Real.sqrt_pos.2 (by nlinarith [mul_self_nonneg (c - p), mul_pos hq hq])
  set A := M * M * ((c - p) / len) * ((c - p) / len) + (1 + beta + beta) * (-q / len) * (-q / len) with hA
  set C := M * M * (c + beta * p0) * (c - p0) with hC
  have hAN : A * len ^ 2 = M ^ 2 * (c - p) ^ 2 + (1 + 2 * beta) * q ^ 2 := by
    rw [hA]; field_simp; ring
  have hB : M * M * ((c - p) / len) * (c + c - p0 + beta * p0) = 0 := by
    have : c + c - p0 + beta * p0 = 0 := by rw [hc]; ring
    rw [this, mul_zero]
  have hApos : 0 < A := by
    have : 0 < A * len ^ 2 := by rw [hAN]; positivity
    exact pos_of_mul_pos_left this (by positivity)
  have hC0 : C = -(M ^ 2 * (p0 * (1 + beta) / 2) ^ 2) := by rw [hC, hc]; ring
  have hCle : C ≤ 0 := by rw [hC0]; nlinarith [sq_nonneg (M * (p0 * (1 + beta) / 2))]
  have hf : 0 < A * len ^ 2 + C := by
    rw [hAN]
    have : M ^ 2 * (c - p) ^ 2 + C = M ^ 2 * (p + beta * p0) * (p - p0) := by rw [hC, hc]; ring
    linarith
  rw [hB]
  set D := Real.sqrt (0 * 0 - 4 * A * C) with hD
  have hDs : D ^ 2 = -(4 * A * C) := by
    rw [hD, Real.sq_sqrt (by nlinarith [mul_nonneg hApos.le (neg_nonneg.2 hCle)])]; ring
  have hD0 : 0 ≤ D := Real.sqrt_nonneg _
  have hlt : D < 2 * A * len := by
    refine lt_of_pow_lt_pow_left₀ 2 (by positivity) ?_
    rw [hDs]
    nlinarith [mul_pos hApos hf]
  refine ⟨D / (2 * A * len), by positivity, (div_lt_one (by positivity)).2 hlt, ?_, ?_⟩
  · field_simp; ring
  · field_simp; ring

theorem harden_sign {m : CamClay} {r : ℝ} {e : Elastic} {p0 p side sn : ℝ} (hb : 0 ≤ m.beta) (hp0 : 0 ≤ p0) (hr : 0 < r) (hs : 0 < sn)
    (hm : 0 < e.mu) (hside : 0 < side) (h1 : p ≤ p0) (h2 : -(m.beta * p0) ≤ p)
    (hy : 0 < (1 + 2 * m.beta) * (r * sn) ^ 2 + m.M ^ 2 * (p + m.beta * p0) * (p - p0)) :
    (p > p0 * ((1 - m.beta) / 2) → m.harden r e p0 p side sn < 0) ∧ (p ≤ p0 * ((1 - m.beta) / 2) → 0 < m.harden r e p0 p side sn) := by
  have hq : 0 < r * sn := mul_pos hr hs
  obtain ⟨t, t0, t1, ht⟩ := fake_between (M := m.M) hb hp0 hq hy
  have h12 : p0 * ((1 - m.beta) / 2) = p0 * ((1 - m.beta) * 0.5) := by ring
  rw [h12]
  simp only at ht
  obtain ⟨ha, hc⟩ := ht
  unfold CamClay.harden
  simp only [ha, hc]
  set c := p0 * ((1 - m.beta) * 0.5) with hcdef
  have hnf : ¬ (p - c) * (c + -(t * (p - c)) - c) > 0 := by
    have : (p - c) * (c + -(t * (p - c)) - c) = -(t * (p - c) ^ 2) := by ring
    rw [this]
    have := mul_nonneg t0 (sq_nonneg (p - c))
    linarith
  rw [if_neg hnf]
  have hK : 0 ≤ m.M * m.M * (p + m.beta * p0) * (p0 - p) / (1 + m.beta + m.beta) := by
    have := mul_nonneg (mul_nonneg (mul_self_nonneg m.M) (show 0 ≤ p + m.beta * p0 by linarith)) (show 0 ≤ p0 - p by linarith)
    positivity
  have hqN : Real.sqrt (m.M * m.M * (p + m.beta * p0) * (p0 - p) / (1 + m.beta + m.beta)) < r * sn := by
    rw [Real.sqrt_lt hK hq.le, div_lt_iff₀ (by linarith)]
    nlinarith
  set qN := Real.sqrt (m.M * m.M * (p + m.beta * p0) * (p0 - p) / (1 + m.beta + m.beta)) with hqNd
  have hq0 : 0 ≤ qN := Real.sqrt_nonneg _
  have hN1 : 1 ≤ Real.sqrt (qN * side / (e.mu * r) + 1) := by
    rw [Real.one_le_sqrt]
    have : 0 ≤ qN * side / (e.mu * r) := by positivity
    linarith
  have hlt : Real.sqrt (qN * side / (e.mu * r) + 1) < Real.sqrt (r * sn * side / (e.mu * r) + 1) := by
    refine Real.sqrt_lt_sqrt (by positivity) ?_
    have : qN * side / (e.mu * r) < r * sn * side / (e.mu * r) := by
      gcongr
    linarith
  have hlog : 0 < Real.log (Real.sqrt (r * sn * side / (e.mu * r) + 1) / Real.sqrt (qN * side / (e.mu * r) + 1)) :=
    Real.log_pos ((one_lt_div (by linarith)).2 hlt)
  rw [if_pos (by norm_num; linarith)]
  constructor
  · intro h
    rw [if_pos]
    · linarith
    · have : 0 < (1 - t) * (p - c) := mul_pos (by linarith) (by linarith)
      linarith
  · intro h
    rw [if_neg]
    · exact hlog
    · have : 0 ≤ (1 - t) * (c - p) := mul_nonneg (by linarith) (by linarith)
      linarith

end Verif.Plastic
