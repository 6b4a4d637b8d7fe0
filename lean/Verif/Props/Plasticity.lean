import Verif.Proof.PlasticityHarden

/-! Claim C84: what the plastic projections do to a state. -/
namespace Verif.Plastic

variable {n : ℕ}

/-- Snow: every singular value ends in the range between the compression and the stretch limit, at the point of it closest to where it was. -/
theorem snow_nearest (m : Snow) (h : 0 ≤ m.thetaC + m.thetaS) (e : Elastic) (S : Fin n → ℝ) (i : Fin n) :
    (1 - m.thetaC ≤ (m.project e S).1 i ∧ (m.project e S).1 i ≤ 1 + m.thetaS) ∧
    ∀ x, 1 - m.thetaC ≤ x → x ≤ 1 + m.thetaS → |(m.project e S).1 i - S i| ≤ |x - S i| := by
  have e1 : (m.project e S).1 i = max (min (S i) (1 + m.thetaS)) (1 - m.thetaC) := rfl
  rw [e1]
  refine ⟨⟨le_max_right _ _, max_le (min_le_right _ _) (by linarith)⟩, fun x h1 h2 => ?_⟩
  rcases le_total (S i) (1 + m.thetaS) with a | a
  · rw [min_eq_left a]
    rcases le_total (S i) (1 - m.thetaC) with b | b
    · rw [max_eq_right b, abs_of_nonneg (by linarith), abs_of_nonneg (by linarith)]; linarith
    · rw [max_eq_left b]; simp
  · rw [min_eq_right a, max_eq_left (by linarith), abs_of_nonpos (by linarith), abs_of_nonpos (by linarith)]; linarith

/-- Snow: a state within the limits is left alone together with the parameters, a compressed one gets stiffer, a stretched one softer. -/
theorem snow_hardening (m : Snow) (hC0 : 0 ≤ m.thetaC) (hC : m.thetaC < 1) (hS0 : 0 ≤ m.thetaS) (hx : 0 ≤ m.xi) (e : Elastic) (hm : 0 ≤ e.mu) (hl : 0 ≤ e.lam)
    (S : Fin n → ℝ) (hS : ∀ i, 0 < S i) :
    ((∀ i, S i ≤ 1 + m.thetaS) → e.mu ≤ (m.project e S).2.mu ∧ e.lam ≤ (m.project e S).2.lam) ∧
    ((∀ i, 1 - m.thetaC ≤ S i) → 1e-6 ≤ (1 - m.thetaC) ^ n → (m.project e S).2.mu ≤ e.mu ∧ (m.project e S).2.lam ≤ e.lam) ∧
    ((∀ i, 1 - m.thetaC ≤ S i ∧ S i ≤ 1 + m.thetaS) → (m.project e S).1 = S ∧ (1e-6 ≤ (1 - m.thetaC) ^ n → (m.project e S).2 = e)) := by
  have hcl : ∀ i, 0 < m.clamp (S i) := fun i => lt_of_lt_of_le (by linarith) (le_max_right _ _)
  have hP : 0 < ∏ i, m.clamp (S i) := Finset.prod_pos fun i _ => hcl i
  have hge : 1e-6 ≤ (1 - m.thetaC) ^ n → 1e-6 ≤ ∏ i, m.clamp (S i) := fun h => h.trans (by
    have : ∏ _i : Fin n, (1 - m.thetaC) ≤ ∏ i, m.clamp (S i) := Finset.prod_le_prod (fun i _ => by linarith) fun i _ => le_max_right _ _
    simpa using this)
  have up : (∀ i, S i ≤ 1 + m.thetaS) → ∏ i, S i ≤ ∏ i, m.clamp (S i) := fun h =>
    Finset.prod_le_prod (fun i _ => (hS i).le) fun i _ => le_trans (le_of_eq (min_eq_left (h i)).symm) (le_max_left _ _)
  have dn : (∀ i, 1 - m.thetaC ≤ S i) → ∏ i, m.clamp (S i) ≤ ∏ i, S i := fun h =>
    Finset.prod_le_prod (fun i _ => (hcl i).le) fun i _ => max_le (min_le_left _ _) (h i)
  have key : ∀ a : ℝ, 0 ≤ a →
      ((∀ i, S i ≤ 1 + m.thetaS) → a ≤ a * Real.exp (m.xi * (1 - (∏ i, S i) / max (∏ i, m.clamp (S i)) 1e-6))) ∧
      ((∀ i, 1 - m.thetaC ≤ S i) → 1e-6 ≤ (1 - m.thetaC) ^ n → a * Real.exp (m.xi * (1 - (∏ i, S i) / max (∏ i, m.clamp (S i)) 1e-6)) ≤ a) := by
    refine fun a ha => ⟨fun h => ?_, fun h h6 => ?_⟩
    · have : 1 ≤ Real.exp (m.xi * (1 - (∏ i, S i) / max (∏ i, m.clamp (S i)) 1e-6)) := by
        rw [Real.one_le_exp_iff]
        refine mul_nonneg hx (sub_nonneg.2 ((div_le_one (lt_of_lt_of_le hP (le_max_left _ _))).2 ((up h).trans (le_max_left _ _))))
      nlinarith
    · have : Real.exp (m.xi * (1 - (∏ i, S i) / max (∏ i, m.clamp (S i)) 1e-6)) ≤ 1 := by
        rw [Real.exp_le_one_iff, max_eq_left (hge h6)]
        refine mul_nonpos_of_nonneg_of_nonpos hx (sub_nonpos.2 ((one_le_div hP).2 (dn h)))
      nlinarith
  refine ⟨fun h => ⟨(key _ hm).1 h, (key _ hl).1 h⟩, fun h h6 => ⟨(key _ hm).2 h h6, (key _ hl).2 h h6⟩, fun h => ⟨?_, fun h6 => ?_⟩⟩
  · funext i
    change max (min (S i) (1 + m.thetaS)) (1 - m.thetaC) = S i
    rw [min_eq_left (h i).2, max_eq_left (h i).1]
  · have a := (key _ hm).1 fun i => (h i).2
    have b := (key _ hm).2 (fun i => (h i).1) h6
    have c := (key _ hl).1 fun i => (h i).2
    have d := (key _ hl).2 (fun i => (h i).1) h6
    exact congrArg₂ Elastic.mk (le_antisymm b a) (le_antisymm d c)

/-- Capped von Mises: the result is admissible, and no admissible state is closer to the given one in logarithmic strain. -/
theorem capped_nearest (hn : n ≠ 0) (m : Capped) (e : Elastic) (hm : 0 < e.mu) (hk : 0 < n * e.lam + 2 * e.mu) (hy : 0 ≤ m.yieldStress)
    (hc : -m.k1Compress ≤ m.k1Stretch) (S : Fin n → ℝ) (hS : ∀ i, 0 < S i) :
    InCap m e (m.project e S) ∧ ∀ T, InCap m e T → strainDist (m.project e S) S ≤ strainDist T S := by
  have hnp : (0 : ℝ) < n := by exact_mod_cast Nat.pos_of_ne_zero hn
  obtain ⟨t, t0, t1, hpos, hlog, hnorm⟩ := radial_spec hn hm hy hS
  set eps := fun i => Real.log (S i) with heps
  set K := (n : ℝ) * e.lam + 2 * e.mu with hK
  have hK2 : (n : ℝ) * e.lam + (e.mu + e.mu) = K := by rw [hK]; ring
  have hK3 : (n : ℝ) * (n * e.lam) + n * (e.mu + e.mu) = n * K := by rw [hK]; ring
  -- the factor of the caps
  obtain ⟨c, hres, hcl⟩ : ∃ c, (∀ i, m.project e S i = radial m.yieldStress e S i * Real.exp c) ∧
      tr eps + n * c = max (min (tr eps) (m.k1Stretch / K)) (-m.k1Compress / K) := by
    have hcd : -m.k1Compress / K ≤ m.k1Stretch / K := by gcongr
    unfold Capped.project
    simp only [hK2, hK3]
    by_cases h1 : tr eps > m.k1Stretch / K
    · refine ⟨m.k1Stretch / (n * K) - tr eps / n, fun i => by rw [if_pos h1], ?_⟩
      rw [min_eq_right h1.le, max_eq_left hcd]
      field_simp
      ring
    · by_cases h2 : tr eps < -m.k1Compress / K
      · refine ⟨-m.k1Compress / (n * K) - tr eps / n, fun i => by rw [if_neg h1, if_pos h2], ?_⟩
        rw [min_eq_left (by linarith), max_eq_right h2.le]
        field_simp
        ring
      · exact ⟨0, fun i => by rw [if_neg h1, if_neg h2, Real.exp_zero, mul_one], by rw [min_eq_left (by linarith), max_eq_left (by linarith)]; ring⟩
  have hlr : (fun i => Real.log (m.project e S i)) = fun i => (eps i - (1 - t) * dev eps i) + c := by
    funext i
    rw [hres i, Real.log_mul (hpos i).ne' (Real.exp_pos c).ne', Real.log_exp, hlog i]
  obtain ⟨ra, rb⟩ := return_spec hn eps t
  have htr : tr (fun i => Real.log (m.project e S i)) = max (min (tr eps) (m.k1Stretch / K)) (-m.k1Compress / K) := by
    rw [hlr, tr_add, ra, tr_const, hcl]
  have hdev : dev (fun i => Real.log (m.project e S i)) = fun i => t * dev eps i := by
    rw [hlr]
    have := dev_affine 1 c hn (fun i => eps i - (1 - t) * dev eps i)
    simp only [one_mul] at this
    rw [this, rb]
  have hdn : norm (dev fun i => Real.log (m.project e S i)) = min (norm (dev eps)) (m.yieldStress / (2 * e.mu)) := by
    rw [hdev, norm_smul, abs_of_nonneg t0, hnorm]
  constructor
  · refine ⟨fun i => by rw [hres i]; exact mul_pos (hpos i) (Real.exp_pos c), ?_, ?_, ?_⟩
    · rw [norm_dev_hencky hn hm, hdn]
      calc 2 * e.mu * min (norm (dev eps)) (m.yieldStress / (2 * e.mu)) ≤ 2 * e.mu * (m.yieldStress / (2 * e.mu)) := by
            gcongr; exact min_le_right _ _
        _ = m.yieldStress := by field_simp
    · rw [tr_hencky, htr]
      calc -m.k1Compress = K * (-m.k1Compress / K) := by field_simp
        _ ≤ K * _ := by gcongr; exact le_max_right _ _
    · rw [tr_hencky, htr]
      calc K * _ ≤ K * (m.k1Stretch / K) := by
            refine mul_le_mul_of_nonneg_left (max_le (min_le_right _ _) ?_) hk.le
            gcongr
        _ = m.k1Stretch := by field_simp
  · intro T hT
    have hTs := hT.shear
    rw [norm_dev_hencky hn hm] at hTs
    have hTl := hT.low
    have hTh := hT.high
    rw [tr_hencky] at hTl hTh
    set tau := fun i => Real.log (T i) with htau
    have hTs' : norm (dev tau) ≤ m.yieldStress / (2 * e.mu) := by rw [le_div_iff₀ (by linarith)]; linarith
    have hTl' : -m.k1Compress / K ≤ tr tau := by rw [div_le_iff₀ hk]; linarith
    have hTh' : tr tau ≤ m.k1Stretch / K := by rw [le_div_iff₀ hk]; linarith
    have d1 : strainDist (m.project e S) S = ((1 - t) * norm (dev eps)) ^ 2 + (tr (fun i => Real.log (m.project e S i)) - tr eps) ^ 2 / n := by
      have p := pythagoras hn (fun i => Real.log (m.project e S i) - eps i)
      rw [dev_sub, tr_sub, hdev] at p
      have : (fun i => t * dev eps i - dev eps i) = fun i => (t - 1) * dev eps i := by funext i; ring
      rw [this, norm_smul, abs_of_nonpos (by linarith)] at p
      rw [strainDist]
      refine Eq.trans p ?_
      ring
    have d2 : strainDist T S = norm (fun i => dev tau i - dev eps i) ^ 2 + (tr tau - tr eps) ^ 2 / n := by
      have p := pythagoras hn (fun i => tau i - eps i)
      rw [dev_sub, tr_sub] at p
      exact p
    rw [d1, d2, htr]
    have hA : (1 - t) * norm (dev eps) ≤ norm (fun i => dev tau i - dev eps i) := by
      have tri := norm_triangle (dev eps) (dev tau)
      have sw : norm (fun i => dev eps i - dev tau i) = norm (fun i => dev tau i - dev eps i) := by
        have : (fun i => dev eps i - dev tau i) = fun i => (-1) * (dev tau i - dev eps i) := by funext i; ring
        rw [this, norm_smul]; simp
      rw [sw] at tri
      have : (1 - t) * norm (dev eps) = norm (dev eps) - min (norm (dev eps)) (m.yieldStress / (2 * e.mu)) := by rw [← hnorm]; ring
      rw [this]
      rcases le_total (norm (dev eps)) (m.yieldStress / (2 * e.mu)) with h | h
      · rw [min_eq_left h]; simpa using norm_nonneg _
      · rw [min_eq_right h]; linarith
    have hB : (max (min (tr eps) (m.k1Stretch / K)) (-m.k1Compress / K) - tr eps) ^ 2 ≤ (tr tau - tr eps) ^ 2 := by
      rw [sq_le_sq]
      rcases le_total (tr eps) (m.k1Stretch / K) with a | a
      · rw [min_eq_left a]
        rcases le_total (tr eps) (-m.k1Compress / K) with b | b
        · rw [max_eq_right b, abs_of_nonneg (by linarith), abs_of_nonneg (by linarith)]; linarith
        · rw [max_eq_left b]; simp
      · rw [min_eq_right a, max_eq_left (by linarith), abs_of_nonpos (by linarith), abs_of_nonpos (by linarith)]; linarith
    have hA0 : 0 ≤ (1 - t) * norm (dev eps) := mul_nonneg (by linarith) (norm_nonneg _)
    gcongr

/-- Capped von Mises: an admissible state is left alone. -/
theorem capped_inside (hn : n ≠ 0) (m : Capped) (e : Elastic) (hm : 0 < e.mu) (hk : 0 < n * e.lam + 2 * e.mu) (S : Fin n → ℝ) (h : InCap m e S) :
    m.project e S = S := by
  have hs := h.shear
  have hl := h.low
  have hh := h.high
  rw [norm_dev_hencky hn hm] at hs
  rw [tr_hencky] at hl hh
  have h2 : e.mu + e.mu = 2 * e.mu := by ring
  have hr : radial m.yieldStress e S = S := by
    unfold radial
    simp only [h2]
    rw [if_neg]
    rw [not_lt, sub_nonpos, le_div_iff₀ (by linarith)]
    linarith
  unfold Capped.project
  simp only [h2, hr]
  rw [if_neg, if_neg]
  · rw [not_lt, div_le_iff₀ hk]; linarith
  · rw [gt_iff_lt, not_lt, le_div_iff₀ hk]; linarith

/-- With a strain rate (no caps): volume kept, the shear stress cut at the yield stress raised by `(rate / c)^p`, never raised. -/
theorem capped_rate (hn : n ≠ 0) (m : Capped) (e : Elastic) (hm : 0 < e.mu) (hy : 0 ≤ m.yieldStress) (rate c p : ℝ) (hr : 0 ≤ rate) (hc : 0 < c)
    (S : Fin n → ℝ) (hS : ∀ i, 0 < S i) :
    (∀ i, 0 < m.projectRate e rate c p S i) ∧ ∏ i, m.projectRate e rate c p S i = ∏ i, S i ∧
    norm (dev (hencky e (m.projectRate e rate c p S))) = min (norm (dev (hencky e S))) (m.yieldStress * (1 + (rate / c) ^ p)) := by
  have hys : 0 ≤ m.yieldStress * (1 + (rate / c) ^ p) := mul_nonneg hy (by have := Real.rpow_nonneg (div_nonneg hr hc.le) p; linarith)
  obtain ⟨t, t0, t1, hpos, hlog, hnorm⟩ := radial_spec hn hm hys hS
  obtain ⟨ra, rb⟩ := return_spec hn (fun i => Real.log (S i)) t
  have hpos' : ∀ i, 0 < m.projectRate e rate c p S i := hpos
  have hlog' : (fun i => Real.log (m.projectRate e rate c p S i)) = _ := funext hlog
  refine ⟨hpos', ?_, ?_⟩
  · have : Real.log (∏ i, m.projectRate e rate c p S i) = Real.log (∏ i, S i) := by
      rw [Real.log_prod fun i _ => (hpos' i).ne', Real.log_prod fun i _ => (hS i).ne']
      change tr (fun i => Real.log (m.projectRate e rate c p S i)) = tr fun i => Real.log (S i)
      rw [hlog', ra]
    exact Real.log_injOn_pos (Set.mem_Ioi.2 (Finset.prod_pos fun i _ => hpos' i)) (Set.mem_Ioi.2 (Finset.prod_pos fun i _ => hS i)) this
  · rw [norm_dev_hencky hn hm, norm_dev_hencky hn hm, hlog', rb, norm_smul, abs_of_nonneg t0, hnorm, mul_min_of_nonneg _ _ (by linarith)]
    congr 1
    field_simp

/-- Drucker-Prager: whatever the state, the result is in the cone. -/
theorem drucker_cone (hn : n ≠ 0) (tol tau0 : ℝ) (htau : 0 ≤ tau0) (e : Elastic) (hm : 0 < e.mu) (hk : 0 < n * e.lam + 2 * e.mu) (S : Fin n → ℝ) :
    InCone tau0 e (drucker tol tau0 e S).2 := by
  have h2 : e.mu + e.mu = 2 * e.mu := by ring
  rw [InCone, norm_dev_hencky hn hm, tr_hencky]
  unfold drucker
  simp only [h2]
  set eps := fun i => Real.log (S i)
  by_cases h : (-tol ≤ norm (dev eps) ∧ norm (dev eps) ≤ tol) ∨ tr eps > 0
  · rw [if_pos h]
    simp only [Real.log_one]
    have : dev (fun _ : Fin n => (0 : ℝ)) = fun i => 0 * (fun _ => 0 : Fin n → ℝ) i := by funext i; simp [dev, tr]
    rw [this, norm_smul]
    simp [tr]
  · rw [if_neg h]
    push Not at h
    by_cases hd : norm (dev eps) + (n * e.lam + 2 * e.mu) / (2 * e.mu) * tr eps * tau0 ≤ 0
    · rw [if_pos hd]
      change 2 * e.mu * norm (dev eps) ≤ -tau0 * ((n * e.lam + 2 * e.mu) * tr eps)
      have := mul_le_mul_of_nonneg_left hd (show 0 ≤ 2 * e.mu by linarith)
      have e3 : 2 * e.mu * (norm (dev eps) + (n * e.lam + 2 * e.mu) / (2 * e.mu) * tr eps * tau0) =
          2 * e.mu * norm (dev eps) + (n * e.lam + 2 * e.mu) * tr eps * tau0 := by field_simp
      rw [e3] at this
      linarith
    · rw [if_neg hd]
      simp only [Real.log_exp]
      set dg := norm (dev eps) + (n * e.lam + 2 * e.mu) / (2 * e.mu) * tr eps * tau0 with hdg
      push Not at hd
      have hle : (n * e.lam + 2 * e.mu) / (2 * e.mu) * tr eps * tau0 ≤ 0 := by
        have h0 : 0 ≤ (n * e.lam + 2 * e.mu) / (2 * e.mu) := by positivity
        exact mul_nonpos_of_nonpos_of_nonneg (mul_nonpos_of_nonneg_of_nonpos h0 h.2) htau
      have hdn : 0 < norm (dev eps) := by linarith
      obtain ⟨ra, rb⟩ := return_spec hn eps (1 - dg / norm (dev eps))
      rw [show 1 - (1 - dg / norm (dev eps)) = dg / norm (dev eps) by ring] at ra rb
      have ht : 0 ≤ 1 - dg / norm (dev eps) := by rw [sub_nonneg, div_le_one hdn]; linarith
      rw [ra, rb, norm_smul, abs_of_nonneg ht]
      have : 2 * e.mu * ((1 - dg / norm (dev eps)) * norm (dev eps)) = 2 * e.mu * (norm (dev eps) - dg) := by field_simp
      rw [this, hdg]
      have : 2 * e.mu * (norm (dev eps) - (norm (dev eps) + (n * e.lam + 2 * e.mu) / (2 * e.mu) * tr eps * tau0)) =
        -tau0 * ((n * e.lam + 2 * e.mu) * tr eps) := by field_simp; ring
      exact this.le

/-- Drucker-Prager under compression: volume kept, the deviator of the strain shortened, its direction kept. -/
theorem drucker_volume (hn : n ≠ 0) (tol tau0 : ℝ) (htau : 0 ≤ tau0) (e : Elastic) (hm : 0 < e.mu) (hk : 0 < n * e.lam + 2 * e.mu)
    (S : Fin n → ℝ) (hS : ∀ i, 0 < S i) (hJ : ∏ i, S i ≤ 1) (htol : 0 ≤ tol) (hd : tol < norm (dev fun i => Real.log (S i))) :
    (∀ i, 0 < (drucker tol tau0 e S).2 i) ∧ ∏ i, (drucker tol tau0 e S).2 i = ∏ i, S i ∧
    ∃ t, 0 ≤ t ∧ t ≤ 1 ∧ dev (fun i => Real.log ((drucker tol tau0 e S).2 i)) = fun i => t * dev (fun i => Real.log (S i)) i := by
  have h2 : e.mu + e.mu = 2 * e.mu := by ring
  have htr : tr (fun i => Real.log (S i)) ≤ 0 := by
    have : tr (fun i => Real.log (S i)) = Real.log (∏ i, S i) := (Real.log_prod fun i _ => (hS i).ne').symm
    rw [this]
    exact Real.log_nonpos (Finset.prod_nonneg fun i _ => (hS i).le) hJ
  unfold drucker
  simp only [h2]
  set eps := fun i => Real.log (S i) with heps
  have hneg : ¬ ((-tol ≤ norm (dev eps) ∧ norm (dev eps) ≤ tol) ∨ tr eps > 0) := by
    rintro (h | h)
    · linarith [h.2]
    · linarith
  rw [if_neg hneg]
  by_cases hdg : norm (dev eps) + (n * e.lam + 2 * e.mu) / (2 * e.mu) * tr eps * tau0 ≤ 0
  · rw [if_pos hdg]
    exact ⟨hS, rfl, 1, zero_le_one, le_refl 1, by simp only [one_mul]; rfl⟩
  · rw [if_neg hdg]
    set dg := norm (dev eps) + (n * e.lam + 2 * e.mu) / (2 * e.mu) * tr eps * tau0 with hdg'
    push Not at hdg
    have hle : (n * e.lam + 2 * e.mu) / (2 * e.mu) * tr eps * tau0 ≤ 0 := by
      have h0 : 0 ≤ (n * e.lam + 2 * e.mu) / (2 * e.mu) := by positivity
      exact mul_nonpos_of_nonpos_of_nonneg (mul_nonpos_of_nonneg_of_nonpos h0 htr) htau
    have hdn : 0 < norm (dev eps) := by linarith
    obtain ⟨ra, rb⟩ := return_spec hn eps (1 - dg / norm (dev eps))
    rw [show 1 - (1 - dg / norm (dev eps)) = dg / norm (dev eps) by ring] at ra rb
    refine ⟨fun i => Real.exp_pos _, ?_, 1 - dg / norm (dev eps), ?_, ?_, ?_⟩
    · rw [← Real.exp_sum]
      change Real.exp (tr fun i => eps i - dg / norm (dev eps) * dev eps i) = _
      rw [ra]
      have : tr eps = Real.log (∏ i, S i) := (Real.log_prod fun i _ => (hS i).ne').symm
      rw [this, Real.exp_log (Finset.prod_pos fun i _ => hS i)]
    · rw [sub_nonneg, div_le_one hdn]; linarith
    · have : 0 ≤ dg / norm (dev eps) := by positivity
      linarith
    · simp only [Real.log_exp]
      exact rb

/-- Drucker-Prager: a state in the cone with a deviator beyond the tolerance is left alone.
Missing: states in the cone that are nearly isotropic (see the next theorem). -/
theorem drucker_inside_partial (hn : n ≠ 0) (tol tau0 : ℝ) (htau : 0 < tau0) (htol : 0 ≤ tol) (e : Elastic) (hm : 0 < e.mu) (hk : 0 < n * e.lam + 2 * e.mu)
    (S : Fin n → ℝ) (h : InCone tau0 e S) (hd : tol < norm (dev fun i => Real.log (S i))) : drucker tol tau0 e S = (false, S) := by
  have h2 : e.mu + e.mu = 2 * e.mu := by ring
  rw [InCone, norm_dev_hencky hn hm, tr_hencky] at h
  unfold drucker
  simp only [h2]
  set eps := fun i => Real.log (S i) with heps
  have hpos : 0 < 2 * e.mu * norm (dev eps) := mul_pos (by linarith) (by linarith)
  have hneg : ¬ ((-tol ≤ norm (dev eps) ∧ norm (dev eps) ≤ tol) ∨ tr eps > 0) := by
    rintro (h' | h')
    · linarith [h'.2]
    · have := mul_pos htau (mul_pos hk h')
      linarith
  rw [if_neg hneg, if_pos]
  have : norm (dev eps) + (n * e.lam + 2 * e.mu) / (2 * e.mu) * tr eps * tau0 =
      (2 * e.mu * norm (dev eps) + (n * e.lam + 2 * e.mu) * tr eps * tau0) / (2 * e.mu) := by field_simp
  rw [this]
  exact div_nonpos_of_nonpos_of_nonneg (by linarith) (by linarith)

/-- Drucker-Prager: a state compressed alike in all directions is in the cone, yet it is reset to the rest state, which removes its stress and changes its volume. -/
theorem drucker_isotropic_violated (tol tau0 : ℝ) (htau : 0 < tau0) (htol : 0 ≤ tol) (e : Elastic) (hm : 0 < e.mu) (hl : 0 ≤ e.lam) :
    ∃ S : Fin 3 → ℝ, (∀ i, 0 < S i) ∧ InCone tau0 e S ∧ drucker tol tau0 e S = (true, fun _ => 1) ∧ ∏ i, S i = 1 / 8 ∧ ∏ i, (drucker tol tau0 e S).2 i = 1 := by
  have hdev : dev (fun i : Fin 3 => Real.log ((fun _ => 1 / 2 : Fin 3 → ℝ) i)) = fun i => 0 * (fun _ => 0 : Fin 3 → ℝ) i := by
    funext i
    simp only [dev, tr_const]
    push_cast
    ring
  have hz : norm (dev (fun i : Fin 3 => Real.log ((fun _ => 1 / 2 : Fin 3 → ℝ) i))) = 0 := by rw [hdev, norm_smul]; simp
  have hd : drucker tol tau0 e (fun _ : Fin 3 => (1 / 2 : ℝ)) = (true, fun _ => 1) := by
    unfold drucker
    simp only
    rw [if_pos]
    left
    have hz' : norm (dev (fun _ : Fin 3 => Real.log (1 / 2))) = 0 := hz
    rw [hz']
    exact ⟨by linarith, htol⟩
  refine ⟨fun _ => 1 / 2, fun _ => by norm_num, ?_, hd, by simp; norm_num, by rw [hd]; simp⟩
  rw [InCone, norm_dev_hencky (by norm_num) hm, hz, tr_hencky, tr_const]
  have : Real.log (1 / 2) < 0 := Real.log_neg (by norm_num) (by norm_num)
  have hk : (0 : ℝ) ≤ (3 : ℕ) * e.lam + 2 * e.mu := by push_cast; linarith
  have := mul_nonneg htau.le (mul_nonneg hk (show (0 : ℝ) ≤ ((3 : ℕ) : ℝ) * -Real.log (1 / 2) by push_cast; linarith))
  nlinarith

/-- Drucker-Prager: the slope the constructor computes is positive for friction angles between 0 and 180 degrees. -/
theorem drucker_slope (coeff angle : ℝ) (hc : 0 < coeff) (h0 : 0 < angle) (h1 : angle < 180) : 0 < frictionSlope coeff angle := by
  unfold frictionSlope
  have hs : 0 < Real.sin (angle / 180 * Real.pi) := Real.sin_pos_of_pos_of_lt_pi (by positivity) (by
    have : angle / 180 < 1 := by rw [div_lt_one (by norm_num)]; exact h1
    nlinarith [Real.pi_pos])
  have h3 : Real.sin (angle / 180 * Real.pi) ≤ 1 := Real.sin_le_one _
  simp only
  refine div_pos (mul_pos hc (by linarith)) (by linarith)

/-- Von Mises outside the yield surface: the sum of the squares stays, their deviator is shortened so that the stress with the trial scale is on the surface; the volume does not fall. -/
theorem vonMises_return (hn : n ≠ 0) (m : VonMises) (coeff : ℝ) (e : Elastic) (hm : 0 < e.mu) (hb : 0 ≤ m.bound coeff)
    (S : Fin n → ℝ) (hS : ∀ i, 0 < S i) (hy : m.bound coeff + 1e-4 ≤ norm (shearStress e S)) :
    ∃ R, m.project coeff e S = (true, R) ∧ (∀ i, 0 < R i) ∧ ∑ i, R i ^ 2 = ∑ i, S i ^ 2 ∧
      (∃ t, 0 ≤ t ∧ t < 1 ∧ dev (fun i => R i ^ 2) = fun i => t * dev (fun i => S i ^ 2) i) ∧
      e.mu * (∏ i, S i) ^ (-2 / (n : ℝ)) * norm (dev fun i => R i ^ 2) = m.bound coeff ∧ ∏ i, S i ≤ ∏ i, R i := by
  have hJ : 0 < ∏ i, S i := Finset.prod_pos fun i _ => hS i
  have hsm : 0 < e.mu * (∏ i, S i) ^ (-2 / (n : ℝ)) := mul_pos hm (Real.rpow_pos_of_pos hJ _)
  have h4 : (0 : ℝ) < 1e-4 := by norm_num
  have hsn : 0 < norm (shearStress e S) := by linarith
  set t := m.bound coeff / norm (shearStress e S) with ht
  have t0 : 0 ≤ t := by positivity
  have t1 : t < 1 := by rw [ht, div_lt_one hsn]; linarith
  have hproj : m.project coeff e S = (true, fun i => Real.sqrt (S i ^ 2 - (1 - t) * dev (fun i => S i ^ 2) i)) := by
    unfold VonMises.project
    simp only [← shearStress_eq]
    rw [if_neg (by rw [not_lt]; linarith)]
    congr 1
    funext i
    congr 1
    rw [← sq]
    congr 1
    have : (fun i => S i * S i) = fun i => S i ^ 2 := by funext i; ring
    rw [this, ht]
    field_simp
  have hmix := mixed hn hS t0 t1.le (R := fun i => Real.sqrt (S i ^ 2 - (1 - t) * dev (fun i => S i ^ 2) i)) fun i => rfl
  obtain ⟨a, b, c, d⟩ := hmix
  refine ⟨_, hproj, a, b, ⟨t, t0, t1, c⟩, ?_, d⟩
  rw [c, norm_smul, abs_of_nonneg t0]
  have hsh : norm (shearStress e S) = e.mu * (∏ i, S i) ^ (-2 / (n : ℝ)) * norm (dev fun i => S i ^ 2) := by
    have : shearStress e S = fun i => (e.mu * (∏ j, S j) ^ (-2 / (n : ℝ))) * dev (fun i => S i ^ 2) i := rfl
    rw [this, norm_smul, abs_of_pos hsm]
  calc _ = t * norm (shearStress e S) := by rw [hsh]; ring
    _ = m.bound coeff := by rw [ht]; field_simp

/-- Von Mises: the result is within the yield surface up to the tolerance of the code, strictly so after a return, and projecting again changes nothing. -/
theorem vonMises_again (hn : n ≠ 0) (m : VonMises) (coeff : ℝ) (e : Elastic) (hm : 0 < e.mu) (hb : 0 ≤ m.bound coeff)
    (S : Fin n → ℝ) (hS : ∀ i, 0 < S i) :
    norm (shearStress e (m.project coeff e S).2) < m.bound coeff + 1e-4 ∧
    ((m.project coeff e S).1 = true → norm (shearStress e (m.project coeff e S).2) ≤ m.bound coeff) ∧
    m.project coeff e (m.project coeff e S).2 = (false, (m.project coeff e S).2) := by
  have inside : ∀ T : Fin n → ℝ, norm (shearStress e T) < m.bound coeff + 1e-4 → m.project coeff e T = (false, T) := by
    intro T h
    unfold VonMises.project
    simp only [← shearStress_eq]
    rw [if_pos (by linarith)]
  by_cases hy : m.bound coeff + 1e-4 ≤ norm (shearStress e S)
  · obtain ⟨R, hp, hR, -, -, hs, hJ⟩ := vonMises_return hn m coeff e hm hb S hS hy
    have hJS : 0 < ∏ i, S i := Finset.prod_pos fun i _ => hS i
    have hJR : 0 < ∏ i, R i := Finset.prod_pos fun i _ => hR i
    have hle : norm (shearStress e R) ≤ m.bound coeff := by
      have : shearStress e R = fun i => (e.mu * (∏ j, R j) ^ (-2 / (n : ℝ))) * dev (fun i => R i ^ 2) i := rfl
      rw [this, norm_smul, abs_of_pos (mul_pos hm (Real.rpow_pos_of_pos hJR _)), ← hs]
      have := scale_anti (n := n) hJS hJ
      have h0 := norm_nonneg (dev fun i => R i ^ 2)
      gcongr
    rw [hp]
    have hlt : norm (shearStress e R) < m.bound coeff + 1e-4 := by linarith [show (0 : ℝ) < 1e-4 by norm_num]
    exact ⟨hlt, fun _ => hle, inside R hlt⟩
  · push Not at hy
    rw [inside S hy]
    exact ⟨hy, fun h => absurd h (by simp), inside S hy⟩

/-- Cam-Clay beyond a tip of the ellipse: the root is of a positive number, the result has no shear and exactly the pressure of the tip, and the plastic volume takes what the elastic one gives up. -/
theorem clay_tip (hn : n ≠ 0) (m : CamClay) (r : ℝ) (e : Elastic) (hk : 0 < e.kappa) (hb : 0 ≤ m.beta) (hx : 0 ≤ m.xi)
    (S : Fin n → ℝ) (hS : ∀ i, 0 < S i) (logJp : ℝ) :
    (pressure e S > m.p0 e logJp → pressure e (m.project r e S logJp).S = m.p0 e logJp) ∧
    (pressure e S < -(m.beta * m.p0 e logJp) → pressure e (m.project r e S logJp).S = -(m.beta * m.p0 e logJp)) ∧
    (pressure e S > m.p0 e logJp ∨ pressure e S < -(m.beta * m.p0 e logJp) →
      (m.project r e S logJp).ret = true ∧ (∀ i, 0 < (m.project r e S logJp).S i) ∧ (∀ i, shearStress e (m.project r e S logJp).S i = 0) ∧
      (m.hardeningOn = false → (m.project r e S logJp).logJp = logJp) ∧
      (m.hardeningOn = true → (m.project r e S logJp).logJp + Real.log (∏ i, (m.project r e S logJp).S i) = logJp + Real.log (∏ i, S i))) := by
  have hJ : 0 < ∏ i, S i := Finset.prod_pos fun i _ => hS i
  have hp0 := p0_pos hk hx logJp
  obtain ⟨c1, c2⟩ := project_cases (m := m) (r := r) (e := e) (logJp := logJp) hS
  have hprod : ∀ x : ℝ, 0 < x → ∏ _i : Fin n, x ^ (1 / (n : ℝ)) = x := by
    intro x hx
    rw [Finset.prod_const, Finset.card_univ, Fintype.card_fin, one_div, Real.rpow_inv_natCast_pow hx.le hn]
  have hdev : ∀ (x : ℝ) (i : Fin n), shearStress e (fun _ => x) i = 0 := by
    intro x i
    have h : (n : ℝ) ≠ 0 := by exact_mod_cast hn
    rw [shearStress, dev, tr_const]
    field_simp
    ring
  have tip : ∀ a : ℝ, 0 < a → ∀ q : ℝ, a = -(q + q) / e.kappa + 1 → pressure e (fun _ : Fin n => Real.sqrt a ^ (1 / (n : ℝ))) = q := by
    intro a ha q hq
    rw [pressure, hprod _ (Real.sqrt_pos.2 ha), Real.sq_sqrt ha.le, hq]
    field_simp
    ring
  have common : ∀ a : ℝ, 0 < a → ∀ o : ClayOut n, o = ⟨true, fun _ => Real.sqrt a ^ (1 / (n : ℝ)), if m.hardeningOn then logJp + Real.log ((∏ i, S i) / Real.sqrt a) else logJp⟩ →
      o.ret = true ∧ (∀ i, 0 < o.S i) ∧ (∀ i, shearStress e o.S i = 0) ∧ (m.hardeningOn = false → o.logJp = logJp) ∧
      (m.hardeningOn = true → o.logJp + Real.log (∏ i, o.S i) = logJp + Real.log (∏ i, S i)) := by
    rintro a ha o rfl
    have hsa := Real.sqrt_pos.2 ha
    refine ⟨rfl, fun i => Real.rpow_pos_of_pos hsa _, fun i => hdev _ i, fun h => by simp [h], fun h => ?_⟩
    simp only [h, if_true]
    rw [hprod _ hsa, Real.log_div hJ.ne' hsa.ne']
    ring
  have a1 : pressure e S > m.p0 e logJp → 0 < -(m.p0 e logJp + m.p0 e logJp) / e.kappa + 1 := by
    intro h
    rw [pressure] at h
    have : -(m.p0 e logJp + m.p0 e logJp) / e.kappa + 1 = (e.kappa - 2 * m.p0 e logJp) / e.kappa := by field_simp; ring
    rw [this]
    refine div_pos ?_ hk
    nlinarith [mul_pos hk (pow_pos hJ 2)]
  have a2 : 0 < (m.beta * m.p0 e logJp + m.beta * m.p0 e logJp) / e.kappa + 1 := by positivity
  have n1 : pressure e S < -(m.beta * m.p0 e logJp) → ¬ pressure e S > m.p0 e logJp := by
    intro h
    have := mul_nonneg hb hp0.le
    rw [gt_iff_lt, not_lt]
    linarith
  refine ⟨fun h => by rw [c1 h]; exact tip _ (a1 h) _ rfl, fun h => by rw [c2 (n1 h) h]; exact tip _ a2 _ (by ring), ?_⟩
  rintro (h | h)
  · exact common _ (a1 h) _ (c1 h)
  · exact common _ a2 _ (c2 (n1 h) h)

/-- Cam-Clay: states in the ellipse, up to the tolerance of the code, are left alone. -/
theorem clay_inside (m : CamClay) (r : ℝ) (e : Elastic) (S : Fin n → ℝ) (hS : ∀ i, 0 < S i) (logJp : ℝ)
    (h1 : pressure e S ≤ m.p0 e logJp) (h2 : -(m.beta * m.p0 e logJp) ≤ pressure e S)
    (hy : ellipse m n (m.p0 e logJp) (pressure e S) (normSq (shearStress e S)) < 1e-4) : m.project r e S logJp = ⟨false, S, logJp⟩ :=
  project_in hS h1 h2 hy

/-- Cam-Clay outside the ellipse between the tips: the sum of the squares stays and their deviator is shortened so that the stress with the trial scale and pressure is on the ellipse;
the results are positive. -/
theorem clay_return (hn : n ≠ 0) (hn6 : n < 6) (m : CamClay) (r : ℝ) (e : Elastic) (hm : 0 < e.mu) (hb : 0 ≤ m.beta)
    (S : Fin n → ℝ) (hS : ∀ i, 0 < S i) (logJp : ℝ) (h1 : pressure e S ≤ m.p0 e logJp) (h2 : -(m.beta * m.p0 e logJp) ≤ pressure e S)
    (hy : 1e-4 ≤ ellipse m n (m.p0 e logJp) (pressure e S) (normSq (shearStress e S))) :
    (m.project r e S logJp).ret = true ∧ (∀ i, 0 < (m.project r e S logJp).S i) ∧
    ∑ i, (m.project r e S logJp).S i ^ 2 = ∑ i, S i ^ 2 ∧
    (∃ t, 0 ≤ t ∧ t < 1 ∧ dev (fun i => (m.project r e S logJp).S i ^ 2) = fun i => t * dev (fun i => S i ^ 2) i) ∧
    ellipse m n (m.p0 e logJp) (pressure e S) (normSq fun i => e.mu * (∏ j, S j) ^ (-2 / (n : ℝ)) * dev (fun i => (m.project r e S logJp).S i ^ 2) i) = 0 ∧
    ∏ i, S i ≤ ∏ i, (m.project r e S logJp).S i := by
  have hnp : (n : ℝ) ≠ 0 := by exact_mod_cast hn
  obtain ⟨q0, q1, hc⟩ := out_ratio hn6 hb h1 h2 hy
  have hJ : 0 < ∏ i, S i := Finset.prod_pos fun i _ => hS i
  have hside : 0 < (∏ i, S i) ^ (2 / (n : ℝ)) := Real.rpow_pos_of_pos hJ _
  set Q := -(m.M * m.M * (pressure e S + m.beta * m.p0 e logJp) * (pressure e S - m.p0 e logJp)) / ((6 - (n : ℝ)) * 0.5 * (1 + 2 * m.beta)) with hQ
  have hsn : 0 < norm (shearStress e S) := Real.sqrt_pos.2 (lt_of_le_of_lt q0 q1)
  set t := Real.sqrt Q / norm (shearStress e S) with ht
  have t0 : 0 ≤ t := by positivity
  have t1 : t < 1 := by
    rw [ht, div_lt_one hsn]
    exact Real.sqrt_lt_sqrt q0 q1
  have hout := project_out (r := r) hS h1 h2 hy
  have hsq : (fun i => S i * S i) = fun i => S i ^ 2 := by funext i; ring
  have hR : ∀ i, (m.project r e S logJp).S i = Real.sqrt (S i ^ 2 - (1 - t) * dev (fun i => S i ^ 2) i) := by
    intro i
    have hi : shearStress e S i = e.mu / (∏ i, S i) ^ (2 / (n : ℝ)) * dev (fun i => S i ^ 2) i := by rw [← side_eq hS, hsq]
    rw [hout]
    simp only [hsq, hi]
    rw [← hQ]
    congr 1
    have : (∏ i, S i) ^ (2 / (n : ℝ)) / e.mu * Real.sqrt Q * (e.mu / (∏ i, S i) ^ (2 / (n : ℝ)) * dev (fun i => S i ^ 2) i) / norm (shearStress e S) = t * dev (fun i => S i ^ 2) i := by
      rw [ht]; field_simp
    rw [this]
    simp only [dev]
    ring
  obtain ⟨a, b, c, d⟩ := mixed hn hS t0 t1.le hR
  refine ⟨by rw [hout], a, b, ⟨t, t0, t1, c⟩, ?_, d⟩
  have hn2 : (normSq fun i => e.mu * (∏ j, S j) ^ (-2 / (n : ℝ)) * dev (fun i => (m.project r e S logJp).S i ^ 2) i) = Q := by
    rw [c]
    have : (fun i => e.mu * (∏ j, S j) ^ (-2 / (n : ℝ)) * (t * dev (fun i => S i ^ 2) i)) = fun i => t * shearStress e S i := by
      funext i; rw [shearStress]; ring
    rw [this, ← norm_sq, norm_smul, abs_of_nonneg t0, ht, div_mul_cancel₀ _ hsn.ne', Real.sq_sqrt q0]
  rw [hn2, ← ellipse_eq, hQ, mul_div_cancel₀ _ hc.ne']
  ring

/-- Cam-Clay hardening: after a return from the side of the ellipse, away from the tips, the plastic volume falls if the pressure is above the centre of the ellipse and rises otherwise. -/
theorem clay_hardening (hn6 : n < 6) (m : CamClay) (r : ℝ) (hr : 0 < r) (hr2 : r ^ 2 = (6 - n) / 2) (hh : m.hardeningOn = true)
    (e : Elastic) (hk : 0 < e.kappa) (hm : 0 < e.mu) (hb : 0 ≤ m.beta) (hx : 0 ≤ m.xi) (S : Fin n → ℝ) (hS : ∀ i, 0 < S i) (logJp : ℝ)
    (h0 : m.p0 e logJp > 1e-4) (h1 : pressure e S < m.p0 e logJp - 1e-4) (h2 : pressure e S > 1e-4 - m.beta * m.p0 e logJp)
    (hy : 1e-4 ≤ ellipse m n (m.p0 e logJp) (pressure e S) (normSq (shearStress e S))) :
    (pressure e S > m.p0 e logJp * ((1 - m.beta) / 2) → (m.project r e S logJp).logJp < logJp) ∧
    (pressure e S ≤ m.p0 e logJp * ((1 - m.beta) / 2) → logJp < (m.project r e S logJp).logJp) := by
  have h4 : (0 : ℝ) < 1e-4 := by norm_num
  have l1 : pressure e S ≤ m.p0 e logJp := by linarith
  have l2 : -(m.beta * m.p0 e logJp) ≤ pressure e S := by linarith
  obtain ⟨q0, q1, hc⟩ := out_ratio hn6 hb l1 l2 hy
  have hsn : 0 < norm (shearStress e S) := Real.sqrt_pos.2 (lt_of_le_of_lt q0 q1)
  have hside : 0 < (∏ i, S i) ^ (2 / (n : ℝ)) := Real.rpow_pos_of_pos (Finset.prod_pos fun i _ => hS i) _
  have hy' : 0 < (1 + 2 * m.beta) * (r * norm (shearStress e S)) ^ 2 + m.M ^ 2 * (pressure e S + m.beta * m.p0 e logJp) * (pressure e S - m.p0 e logJp) := by
    rw [mul_pow, hr2, norm_sq]
    rw [ellipse] at hy
    linarith
  obtain ⟨a, b⟩ := harden_sign hb (p0_pos hk hx logJp).le hr hsn hm hside l1 l2 hy'
  rw [project_out (r := r) hS l1 l2 hy]
  simp only [hh, if_true]
  rw [if_pos ⟨h0, h1, h2⟩]
  exact ⟨fun h => by linarith [a h], fun h => by linarith [b h]⟩

/-- Cam-Clay: the volume gained in the return can carry the pressure past the tip, so that the state returned is outside the ellipse. -/
theorem clay_surface_violated :
    ∃ (m : CamClay) (e : Elastic) (S : Fin 2 → ℝ), m.M = 1 ∧ m.beta = 2 ∧ m.xi = 3 ∧ 0 < e.mu ∧ 0 < e.lam ∧ (∀ i, 0 < S i) ∧
      ∀ r, (m.project r e S 0).ret = true ∧ pressure e (m.project r e S 0).S < -(m.beta * m.p0 e 0) := by
  have hk : (⟨1, 1 / 3⟩ : Elastic).kappa = 1 := by norm_num [Elastic.kappa]
  have hp0 : CamClay.p0 ⟨1, 2, 3, true⟩ ⟨1, 1 / 3⟩ 0 = 1e-5 := by rw [CamClay.p0, hk]; simp
  have hS : ∀ i : Fin 2, 0 < (![2, 1 / 2] : Fin 2 → ℝ) i := by intro i; fin_cases i <;> norm_num
  have hJ : ∏ i, (![2, 1 / 2] : Fin 2 → ℝ) i = 1 := by simp [Fin.prod_univ_two]
  have hpr : pressure ⟨1, 1 / 3⟩ (![2, 1 / 2] : Fin 2 → ℝ) = 0 := by simp [pressure, hJ]
  have hd0 : dev (fun i => (![2, 1 / 2] : Fin 2 → ℝ) i ^ 2) 0 = 15 / 8 := by simp [dev, tr, Fin.sum_univ_two]; norm_num
  have hd1 : dev (fun i => (![2, 1 / 2] : Fin 2 → ℝ) i ^ 2) 1 = -15 / 8 := by simp [dev, tr, Fin.sum_univ_two]; norm_num
  have hss : normSq (shearStress ⟨1, 1 / 3⟩ (![2, 1 / 2] : Fin 2 → ℝ)) = 2 * (15 / 8) ^ 2 := by
    simp only [normSq, shearStress, hJ, Real.one_rpow, Fin.sum_univ_two, hd0, hd1]; norm_num
  refine ⟨⟨1, 2, 3, true⟩, ⟨1, 1 / 3⟩, ![2, 1 / 2], rfl, rfl, rfl, by norm_num, by norm_num, hS, fun r => ?_⟩
  obtain ⟨hret, hpos, hsum, ⟨t, t0, t1, hdev⟩, hell, -⟩ := clay_return (by norm_num) (by norm_num) ⟨1, 2, 3, true⟩ r ⟨1, 1 / 3⟩ (by norm_num) (by norm_num)
    ![2, 1 / 2] hS 0 (by rw [hpr, hp0]; norm_num) (by rw [hpr, hp0]; norm_num) (by rw [hpr, hp0, hss, ellipse]; norm_num)
  refine ⟨hret, ?_⟩
  set R := (CamClay.project ⟨1, 2, 3, true⟩ r ⟨1, 1 / 3⟩ (![2, 1 / 2] : Fin 2 → ℝ) 0).S with hR
  have ht2 : t ^ 2 < 1 / 4 := by
    rw [hdev] at hell
    simp only [normSq, hJ, Real.one_rpow, Fin.sum_univ_two, hd0, hd1, hpr, hp0, ellipse] at hell
    norm_num at hell
    nlinarith
  have hsum2 : R 0 ^ 2 + R 1 ^ 2 = 17 / 4 := by
    rw [Fin.sum_univ_two, Fin.sum_univ_two] at hsum
    rw [hsum]; norm_num
  have hdd : R 0 ^ 2 - R 1 ^ 2 = t * (15 / 4) := by
    have a := congrFun hdev 0
    have b := congrFun hdev 1
    simp only [hd0, hd1] at a b
    simp only [dev] at a b
    linarith
  have hprod : 3 < (∏ i, R i) ^ 2 := by
    rw [Fin.prod_univ_two, mul_pow]
    nlinarith
  rw [hp0, pressure, hk]
  have h5 : (2 : ℝ) * 1e-5 < 1 := by norm_num
  change -1 / 2 * ((∏ i, R i) ^ 2 - 1) < -((2 : ℝ) * 1e-5)
  linarith

/-! ### The hypotheses are met -/

example : ∃ (m : Capped) (e : Elastic) (S : Fin 2 → ℝ), 0 < e.mu ∧ 0 < ((2 : ℕ) : ℝ) * e.lam + 2 * e.mu ∧ 0 ≤ m.yieldStress ∧ -m.k1Compress ≤ m.k1Stretch ∧
    (∀ i, 0 < S i) ∧ ¬ InCap m e S := by
  refine ⟨⟨1, 1, 0⟩, ⟨1, 1⟩, ![Real.exp 1, Real.exp 1], by norm_num, by norm_num, by norm_num, by norm_num, ?_, fun h => ?_⟩
  · intro i; fin_cases i <;> exact Real.exp_pos 1
  · have := h.high
    simp [hencky, tr, Fin.sum_univ_two] at this
    norm_num at this

example : ∃ (m : VonMises) (e : Elastic) (S : Fin 2 → ℝ), 0 < e.mu ∧ 0 ≤ m.bound 1 ∧ (∀ i, 0 < S i) ∧ m.bound 1 + 1e-4 ≤ norm (shearStress e S) := by
  refine ⟨⟨1, 0, 0⟩, ⟨1, 1⟩, ![2, 1 / 2], by norm_num, by norm_num [VonMises.bound], fun i => by fin_cases i <;> norm_num, ?_⟩
  have hJ : ∏ i, (![2, 1 / 2] : Fin 2 → ℝ) i = 1 := by simp [Fin.prod_univ_two]
  rw [norm]
  apply Real.le_sqrt_of_sq_le
  simp only [normSq, shearStress, hJ, Real.one_rpow, Fin.sum_univ_two, dev, tr, VonMises.bound]
  norm_num

example : ∃ (m : CamClay) (e : Elastic) (S : Fin 2 → ℝ) (logJp : ℝ), 0 < e.kappa ∧ 0 ≤ m.beta ∧ 0 ≤ m.xi ∧ (∀ i, 0 < S i) ∧ pressure e S > m.p0 e logJp := by
  refine ⟨⟨1, 2, 3, true⟩, ⟨1, 1 / 3⟩, ![1 / 2, 1 / 2], 0, by norm_num [Elastic.kappa], by norm_num, by norm_num, fun i => by fin_cases i <;> norm_num, ?_⟩
  simp [pressure, CamClay.p0, Elastic.kappa, Fin.prod_univ_two]
  norm_num

end Verif.Plastic
