import Verif.Proof.ExactCcd

/-! Properties of the continuous collision tests. -/
namespace Verif.ExactCcd
open Verif.ExactGeo

/-- The test with boxes rejects no contact of a vertex with a face. -/
theorem vf_box_sound (vs fs0 fs1 fs2 ve fe0 fe1 fe2 : V3) {t a b c : ℚ} (h : VFTouch vs fs0 fs1 fs2 ve fe0 fe1 fe2 t a b c) :
    boxCut (prism vs fs0 fs1 fs2 ve fe0 fe1 fe2) = true := by
  obtain ⟨ht, ht1, ha, hb, hc, hs, e⟩ := h
  simp only [V3.ext_iff, at', addMul, sub, mix] at e
  obtain ⟨ex, ey, ez⟩ := e
  by_contra hbox
  rw [Bool.not_eq_true] at hbox
  have hneg : ∀ {v w f0 f1 f2 g0 g1 g2 : ℚ}, v + t * (w - v) = a * (f0 + t * (g0 - f0)) + b * (f1 + t * (g1 - f1)) + c * (f2 + t * (g2 - f2)) →
      v - f0 < 0 → v - f1 < 0 → v - f2 < 0 → w - g0 < 0 → w - g1 < 0 → w - g2 < 0 → False := fun {v w f0 f1 f2 g0 g1 g2} h h0 h1 h2 k0 k1 k2 =>
    vf_coord (v := -v) (w := -w) (f0 := -f0) (f1 := -f1) (f2 := -f2) (g0 := -g0) (g1 := -g1) (g2 := -g2) ht ht1 ha hb hc hs (by linear_combination -h)
      (by linarith) (by linarith) (by linarith) (by linarith) (by linarith) (by linarith)
  rcases box_away hbox with k | k | k | k | k | k <;> simp only [List.forall_mem_cons, sub] at k <;> obtain ⟨k0, k2, k1, l0, l2, l1, _⟩ := k
  · exact hneg ex k0 k1 k2 l0 l1 l2
  · exact vf_coord ht ht1 ha hb hc hs ex k0 k1 k2 l0 l1 l2
  · exact hneg ey k0 k1 k2 l0 l1 l2
  · exact vf_coord ht ht1 ha hb hc hs ey k0 k1 k2 l0 l1 l2
  · exact hneg ez k0 k1 k2 l0 l1 l2
  · exact vf_coord ht ht1 ha hb hc hs ez k0 k1 k2 l0 l1 l2

/-- The test with boxes rejects no contact of two edges. -/
theorem ee_box_sound (a0 a1 b0 b1 a0b a1b b0b b1b : V3) {t r s : ℚ} (h : EETouch a0 a1 b0 b1 a0b a1b b0b b1b t r s) :
    boxCut (hex a0 a1 b0 b1 a0b a1b b0b b1b) = true := by
  obtain ⟨ht, ht1, hr, hr1, hs, hs1, e⟩ := h
  simp only [V3.ext_iff, at', addMul, sub] at e
  obtain ⟨ex, ey, ez⟩ := e
  by_contra hbox
  rw [Bool.not_eq_true] at hbox
  have hneg : ∀ {a0 a1 b0 b1 c0 c1 d0 d1 : ℚ}, a0 + t * (c0 - a0) + r * (a1 + t * (c1 - a1) - (a0 + t * (c0 - a0))) =
      b0 + t * (d0 - b0) + s * (b1 + t * (d1 - b1) - (b0 + t * (d0 - b0))) → a0 - b0 < 0 → a1 - b0 < 0 → a1 - b1 < 0 → a0 - b1 < 0 →
      c0 - d0 < 0 → c1 - d0 < 0 → c1 - d1 < 0 → c0 - d1 < 0 → False := fun {a0 a1 b0 b1 c0 c1 d0 d1} h h0 h1 h2 h3 k0 k1 k2 k3 =>
    ee_coord (a0 := -a0) (a1 := -a1) (b0 := -b0) (b1 := -b1) (c0 := -c0) (c1 := -c1) (d0 := -d0) (d1 := -d1) ht ht1 hr hr1 hs hs1 (by linear_combination -h)
      (by linarith) (by linarith) (by linarith) (by linarith) (by linarith) (by linarith) (by linarith) (by linarith)
  rcases box_away hbox with k | k | k | k | k | k <;> simp only [List.forall_mem_cons, sub] at k <;> obtain ⟨k0, k1, k2, k3, l0, l1, l2, l3, _⟩ := k
  · exact hneg ex k0 k1 k2 k3 l0 l1 l2 l3
  · exact ee_coord ht ht1 hr hr1 hs hs1 ex k0 k1 k2 k3 l0 l1 l2 l3
  · exact hneg ey k0 k1 k2 k3 l0 l1 l2 l3
  · exact ee_coord ht ht1 hr hr1 hs hs1 ey k0 k1 k2 k3 l0 l1 l2 l3
  · exact hneg ez k0 k1 k2 k3 l0 l1 l2 l3
  · exact ee_coord ht ht1 hr hr1 hs hs1 ez k0 k1 k2 k3 l0 l1 l2 l3

/-- A contact at the start or at the end, with a face that is not degenerate there, is reported unless all eight rays are undecided. -/
theorem vf_ends_partial {np : V3 → V3 → V3 → V3} (hnp : Outside np) (draws : List V3) (vs fs0 fs1 fs2 ve fe0 fe1 fe2 : V3) {t a b c : ℚ}
    (h : VFTouch vs fs0 fs1 fs2 ve fe0 fe1 fe2 t a b c)
    (he : t = 0 ∧ degenerate (sub vs fs0) (sub vs fs2) (sub vs fs1) = false ∨ t = 1 ∧ degenerate (sub ve fe0) (sub ve fe2) (sub ve fe1) = false) :
    vertexFace np draws vs fs0 fs1 fs2 ve fe0 fe1 fe2 = true ∨
      ∀ d ∈ trials draws, insidePrism np (prism vs fs0 fs1 fs2 ve fe0 fe1 fe2) ⟨0, 0, 0⟩ d d = -1 := by
  have hbox := vf_box_sound _ _ _ _ _ _ _ _ h
  obtain ⟨ht, ht1, ha, hb, hc, hs, e⟩ := h
  simp only [V3.ext_iff, at', addMul, sub, mix] at e
  obtain ⟨ex, ey, ez⟩ := e
  obtain rfl : a = 1 - b - c := by linarith
  unfold vertexFace
  simp only [hbox, Bool.not_true, Bool.false_eq_true, if_false]
  refine shoot_or fun d _ => prism_triangle ?_
  rcases he with ⟨rfl, hd⟩ | ⟨rfl, hd⟩
  · refine Or.inl (triangle_on hnp hd ha hc hb (by ring) (V3.ext ?_ ?_ ?_) d) <;> simp only [mix, sub]
    · linear_combination -ex
    · linear_combination -ey
    · linear_combination -ez
  · refine Or.inr (triangle_on hnp hd ha hc hb (by ring) (V3.ext ?_ ?_ ?_) d) <;> simp only [mix, sub]
    · linear_combination -ex
    · linear_combination -ey
    · linear_combination -ez

/-- A contact with an edge of the face on the way, where the edge sweeps a patch that is not flat, is reported unless all eight rays are undecided. -/
theorem vf_edges_partial (np : V3 → V3 → V3 → V3) (draws : List V3) (vs fs0 fs1 fs2 ve fe0 fe1 fe2 : V3) {t a b c : ℚ}
    (h : VFTouch vs fs0 fs1 fs2 ve fe0 fe1 fe2 t a b c) (ht : 0 < t) (ht1 : t < 1)
    (he : b = 0 ∧ 0 < a ∧ 0 < c ∧ det (sub vs fs0) (sub vs fs2) (sub ve fe2) (sub ve fe0) ≠ 0 ∨
      a = 0 ∧ 0 < b ∧ 0 < c ∧ det (sub vs fs2) (sub vs fs1) (sub ve fe1) (sub ve fe2) ≠ 0 ∨
      c = 0 ∧ 0 < a ∧ 0 < b ∧ det (sub vs fs0) (sub vs fs1) (sub ve fe1) (sub ve fe0) ≠ 0) :
    vertexFace np draws vs fs0 fs1 fs2 ve fe0 fe1 fe2 = true ∨
      ∀ d ∈ trials draws, insidePrism np (prism vs fs0 fs1 fs2 ve fe0 fe1 fe2) ⟨0, 0, 0⟩ d d = -1 := by
  have hbox := vf_box_sound _ _ _ _ _ _ _ _ h
  obtain ⟨-, -, ha, hb, hc, hs, e⟩ := h
  simp only [V3.ext_iff, at', addMul, sub, mix] at e
  obtain ⟨ex, ey, ez⟩ := e
  have hflat : ∀ {b : Patch}, det b.v0 b.v1 b.v2 b.v3 ≠ 0 → b.flat = false := fun {b} k => by
    unfold Patch.flat orient3d
    exact beq_eq_false_iff_ne.2 fun q => k (sgn_zero.1 q)
  unfold vertexFace
  simp only [hbox, Bool.not_true, Bool.false_eq_true, if_false]
  refine shoot_or fun d _ => ?_
  rcases he with ⟨rfl, h0, h1, hV⟩ | ⟨rfl, h0, h1, hV⟩ | ⟨rfl, h0, h1, hV⟩
  · refine prism_patch (b := ⟨sub vs fs0, sub vs fs2, sub ve fe2, sub ve fe0⟩) (List.mem_cons_self ..)
      (Or.inl (patch_on np (hflat hV) (u := c) (v := t) h1 (by linarith) ht ht1 (V3.ext ?_ ?_ ?_) d))
    all_goals
      obtain rfl : a = 1 - c := by linarith
      simp only [patch, mix4, sub]
    · linear_combination -ex
    · linear_combination -ey
    · linear_combination -ez
  · refine prism_patch (b := ⟨sub vs fs2, sub vs fs1, sub ve fe1, sub ve fe2⟩) (List.mem_cons_of_mem _ (List.mem_cons_self ..))
      (Or.inl (patch_on np (hflat hV) (u := b) (v := t) h0 (by linarith) ht ht1 (V3.ext ?_ ?_ ?_) d))
    all_goals
      obtain rfl : c = 1 - b := by linarith
      simp only [patch, mix4, sub]
    · linear_combination -ex
    · linear_combination -ey
    · linear_combination -ez
  · refine prism_patch (b := ⟨sub vs fs0, sub vs fs1, sub ve fe1, sub ve fe0⟩) (List.mem_cons_of_mem _ (List.mem_cons_of_mem _ (List.mem_cons_self ..)))
      (Or.inl (patch_on np (hflat hV) (u := b) (v := t) h1 (by linarith) ht ht1 (V3.ext ?_ ?_ ?_) d))
    all_goals
      obtain rfl : a = 1 - b := by linarith
      simp only [patch, mix4, sub]
    · linear_combination -ex
    · linear_combination -ey
    · linear_combination -ez

/-- Two edges that touch at the start, at the end, or with an end of one of them, where that is on the interior of a patch that is not flat: reported unless all
eight rays are undecided. -/
theorem ee_border_partial (np : V3 → V3 → V3 → V3) (draws : List V3) (a0 a1 b0 b1 a0b a1b b0b b1b : V3) {t r s : ℚ}
    (h : EETouch a0 a1 b0 b1 a0b a1b b0b b1b t r s)
    (he : (0 < r ∧ r < 1 ∧ 0 < s ∧ s < 1) ∧ (t = 0 ∧ det (sub a0 b0) (sub a1 b0) (sub a1 b1) (sub a0 b1) ≠ 0 ∨
        t = 1 ∧ det (sub a0b b0b) (sub a1b b0b) (sub a1b b1b) (sub a0b b1b) ≠ 0) ∨
      (0 < t ∧ t < 1 ∧ 0 < r ∧ r < 1) ∧ (s = 0 ∧ det (sub a0 b0) (sub a1 b0) (sub a1b b0b) (sub a0b b0b) ≠ 0 ∨
        s = 1 ∧ det (sub a1 b1) (sub a0 b1) (sub a0b b1b) (sub a1b b1b) ≠ 0) ∨
      (0 < t ∧ t < 1 ∧ 0 < s ∧ s < 1) ∧ (r = 1 ∧ det (sub a1 b0) (sub a1 b1) (sub a1b b1b) (sub a1b b0b) ≠ 0 ∨
        r = 0 ∧ det (sub a0 b0) (sub a0 b1) (sub a0b b1b) (sub a0b b0b) ≠ 0)) :
    edgeEdge np draws a0 a1 b0 b1 a0b a1b b0b b1b = true ∨
      ∀ d ∈ trials draws, insideHex np (hex a0 a1 b0 b1 a0b a1b b0b b1b) ⟨0, 0, 0⟩ d d = -1 := by
  have hbox := ee_box_sound _ _ _ _ _ _ _ _ h
  obtain ⟨-, -, -, -, -, -, e⟩ := h
  simp only [V3.ext_iff, at', addMul, sub] at e
  obtain ⟨ex, ey, ez⟩ := e
  have hflat : ∀ {b : Patch}, det b.v0 b.v1 b.v2 b.v3 ≠ 0 → b.flat = false := fun {b} k => by
    unfold Patch.flat orient3d
    exact beq_eq_false_iff_ne.2 fun q => k (sgn_zero.1 q)
  unfold edgeEdge
  simp only [hbox, Bool.not_true, Bool.false_eq_true, if_false]
  refine shoot_or fun d _ => ?_
  have key : ∀ {b : Patch} {u v : ℚ}, b ∈ hexPatches (hex a0 a1 b0 b1 a0b a1b b0b b1b) → det b.v0 b.v1 b.v2 b.v3 ≠ 0 → 0 < u → u < 1 → 0 < v → v < 1 →
      (⟨0, 0, 0⟩ : V3) = patch u v b.v0 b.v1 b.v2 b.v3 → insideHex np (hex a0 a1 b0 b1 a0b a1b b0b b1b) ⟨0, 0, 0⟩ d d = 1 ∨
        insideHex np (hex a0 a1 b0 b1 a0b a1b b0b b1b) ⟨0, 0, 0⟩ d d = -1 := fun hb hV h1 h2 h3 h4 e =>
    hex_patch hb (Or.inl (patch_on np (hflat hV) h1 h2 h3 h4 e d))
  rcases he with ⟨⟨h1, h2, h3, h4⟩, ⟨rfl, hV⟩ | ⟨rfl, hV⟩⟩ | ⟨⟨h1, h2, h3, h4⟩, ⟨rfl, hV⟩ | ⟨rfl, hV⟩⟩ | ⟨⟨h1, h2, h3, h4⟩, ⟨rfl, hV⟩ | ⟨rfl, hV⟩⟩
  · refine key (b := ⟨sub a0 b0, sub a1 b0, sub a1 b1, sub a0 b1⟩) (u := r) (v := s) (by simp [hexPatches, mk, vtx, hex]) hV h1 h2 h3 h4 (V3.ext ?_ ?_ ?_)
    all_goals simp only [patch, mix4, sub]
    · linear_combination -ex
    · linear_combination -ey
    · linear_combination -ez
  · refine key (b := ⟨sub a0b b0b, sub a1b b0b, sub a1b b1b, sub a0b b1b⟩) (u := r) (v := s) (by simp [hexPatches, mk, vtx, hex]) hV h1 h2 h3 h4 (V3.ext ?_ ?_ ?_)
    all_goals simp only [patch, mix4, sub]
    · linear_combination -ex
    · linear_combination -ey
    · linear_combination -ez
  · refine key (b := ⟨sub a0 b0, sub a1 b0, sub a1b b0b, sub a0b b0b⟩) (u := r) (v := t) (by simp [hexPatches, mk, vtx, hex]) hV h3 h4 h1 h2 (V3.ext ?_ ?_ ?_)
    all_goals simp only [patch, mix4, sub]
    · linear_combination -ex
    · linear_combination -ey
    · linear_combination -ez
  · refine key (b := ⟨sub a1 b1, sub a0 b1, sub a0b b1b, sub a1b b1b⟩) (u := 1 - r) (v := t) (by simp [hexPatches, mk, vtx, hex]) hV (by linarith) (by linarith) h1 h2
      (V3.ext ?_ ?_ ?_)
    all_goals simp only [patch, mix4, sub]
    · linear_combination -ex
    · linear_combination -ey
    · linear_combination -ez
  · refine key (b := ⟨sub a1 b0, sub a1 b1, sub a1b b1b, sub a1b b0b⟩) (u := s) (v := t) (by simp [hexPatches, mk, vtx, hex]) hV h3 h4 h1 h2 (V3.ext ?_ ?_ ?_)
    all_goals simp only [patch, mix4, sub]
    · linear_combination -ex
    · linear_combination -ey
    · linear_combination -ez
  · refine key (b := ⟨sub a0 b0, sub a0 b1, sub a0b b1b, sub a0b b0b⟩) (u := s) (v := t) (by simp [hexPatches, mk, vtx, hex]) hV h3 h4 h1 h2 (V3.ext ?_ ?_ ?_)
    all_goals simp only [patch, mix4, sub]
    · linear_combination -ex
    · linear_combination -ey
    · linear_combination -ez

/-- The kind of a flat patch: plane exactly if its diagonals cross inside of both, folded along the diagonal 0-2 exactly if that diagonal does not separate the
other two corners. -/
theorem degeneration_exact {np : V3 → V3 → V3 → V3} (hnp : Outside np) (v0 v1 v2 v3 : V3) (hd : degenerate v0 v1 v2 = false) (hf : det v0 v1 v2 v3 = 0) :
    (degeneration np ⟨v0, v1, v2, v3⟩ = 1 ↔ ∃ s t : ℚ, 0 < s ∧ s < 1 ∧ 0 < t ∧ t < 1 ∧ at' s v0 v2 = at' t v1 v3) ∧
    (degeneration np ⟨v0, v1, v2, v3⟩ = 2 ↔ ¬∃ s t : ℚ, 0 < t ∧ t < 1 ∧ at' s v0 v2 = at' t v1 v3) := by
  have hn := hnp _ _ _ hd
  have hD : det v0 (np v0 v1 v2) v1 v2 ≠ 0 := by
    have : det v0 (np v0 v1 v2) v1 v2 = -det (np v0 v1 v2) v0 v1 v2 := by simp only [det]; ring
    rw [this]; exact neg_ne_zero.2 hn
  have h3 : det v3 v0 v1 v2 = 0 := by
    have e : det v3 v0 v1 v2 = -det v0 v1 v2 v3 := by simp only [det]; ring
    rw [e, hf, neg_zero]
  obtain ⟨a, b, c, hs, rfl⟩ := mix_exists hD h3
  have hcross : ∀ s t : ℚ, at' s v0 v2 = at' t v1 (mix a b c v0 v1 v2) ↔ 1 - s = t * a ∧ 0 = 1 - t + t * b ∧ s = t * c := by
    intro s t
    have e1 : at' s v0 v2 = mix (1 - s) 0 s v0 v1 v2 := by refine V3.ext ?_ ?_ ?_ <;> simp only [at', addMul, sub, mix] <;> ring
    have e2 : at' t v1 (mix a b c v0 v1 v2) = mix (t * a) (1 - t + t * b) (t * c) v0 v1 v2 := by
      refine V3.ext ?_ ?_ ?_ <;> simp only [at', addMul, sub, mix] <;> ring
    rw [e1, e2]
    constructor
    · exact fun e => mix_unique hD (by ring) (by linear_combination t * hs) e
    · rintro ⟨k1, k2, k3⟩; rw [k1, ← k2, k3]
  rw [degeneration_mix np hd hn hs]
  have hsep : (∃ s t : ℚ, 0 < t ∧ t < 1 ∧ at' s v0 v2 = at' t v1 (mix a b c v0 v1 v2)) ↔ b < 0 := by
    constructor
    · rintro ⟨s, t, h0, h1, e⟩
      obtain ⟨-, k, -⟩ := (hcross s t).1 e
      by_contra hb
      have := mul_nonneg h0.le (not_lt.1 hb)
      linarith
    · intro hb
      have hp : (0 : ℚ) < 1 - b := by linarith
      refine ⟨c / (1 - b), 1 / (1 - b), one_div_pos.2 hp, (div_lt_one hp).2 (by linarith), (hcross _ _).2 ⟨?_, ?_, ?_⟩⟩
      · field_simp; linarith
      · field_simp; ring
      · ring
  constructor
  · constructor
    · intro e
      by_cases hb : 0 ≤ b
      · rw [if_pos hb] at e; exact absurd e (by decide)
      · rw [if_neg hb] at e
        by_cases hca : c * a ≤ 0
        · rw [if_pos hca] at e; exact absurd e (by decide)
        · have hp : (0 : ℚ) < 1 - b := by linarith [not_le.1 hb]
          have hac : 0 < a ∧ 0 < c := by
            rcases pos_and_pos_or_neg_and_neg_of_mul_pos (not_le.1 hca) with ⟨x, y⟩ | ⟨x, y⟩
            · exact ⟨y, x⟩
            · exfalso; linarith
          refine ⟨c / (1 - b), 1 / (1 - b), div_pos hac.2 hp, (div_lt_one hp).2 (by linarith [hac.1]), one_div_pos.2 hp, (div_lt_one hp).2 (by linarith [not_le.1 hb]),
            (hcross _ _).2 ⟨?_, ?_, ?_⟩⟩
          · field_simp; linarith
          · field_simp; ring
          · ring
    · rintro ⟨s, t, h0, h1, h2, h4, e⟩
      have hb := hsep.1 ⟨s, t, h2, h4, e⟩
      obtain ⟨k1, -, k3⟩ := (hcross s t).1 e
      have ha : 0 < a := pos_of_mul_pos_right (by rw [← k1]; linarith) h2.le
      have hc : 0 < c := pos_of_mul_pos_right (by rw [← k3]; exact h0) h2.le
      rw [if_neg (not_le.2 hb), if_neg (not_le.2 (mul_pos hc ha))]
  · rw [hsep, not_lt]
    by_cases hb : 0 ≤ b
    · rw [if_pos hb]; exact ⟨fun _ => hb, fun _ => rfl⟩
    · rw [if_neg hb]
      refine ⟨fun e => absurd e ?_, fun k => absurd k hb⟩
      split <;> decide

/-- A ray from a point away from the plane of a plane patch: undecided for the border of the first triangle without the open edge 1-2, or else for the border of
the second triangle; counted for the interior of a triangle, and also for the open edge 1-2, which is a border of the patch. -/
theorem plane_exact_partial (np : V3 → V3 → V3 → V3) (b : Patch) (pt pt1 d : V3) (hd : pt1 ≠ pt) (d1 : degenerate b.v0 b.v1 b.v2 = false)
    (d2 : degenerate b.v0 b.v3 b.v2 = false) (p1 : det pt b.v0 b.v1 b.v2 ≠ 0) (p2 : det pt b.v0 b.v3 b.v2 ≠ 0) :
    let hit := fun (P : V3 → V3 → V3 → V3 → Prop) (t1 t2 t3 : V3) => ∃ p, OnRay p pt (sub pt1 pt) ∧ P p t1 t2 t3
    let first := hit Interior b.v0 b.v1 b.v2 ∨ hit Border b.v0 b.v1 b.v2
    (flatParity np b pt pt1 d 1 = 1 ↔ hit Interior b.v0 b.v1 b.v2 ∨ hit Edge23 b.v0 b.v1 b.v2 ∨ ¬first ∧ hit Interior b.v0 b.v3 b.v2) ∧
    (flatParity np b pt pt1 d 1 = -1 ↔ hit Border b.v0 b.v1 b.v2 ∧ ¬hit Edge23 b.v0 b.v1 b.v2 ∨ ¬first ∧ hit Border b.v0 b.v3 b.v2) := by
  intro hit first
  obtain ⟨x1, x2, x3⟩ := ray_triangle_exact np pt pt1 d b.v0 b.v1 b.v2 p1 hd d1 true
  obtain ⟨y1, y2, y3⟩ := ray_triangle_exact np pt pt1 d b.v0 b.v3 b.v2 p2 hd d2 false
  have xf := (ray_triangle_exact np pt pt1 d b.v0 b.v1 b.v2 p1 hd d1 false).1
  rw [rayTriangle_off np pt1 d d1 p1] at x1 x2 x3 xf
  rw [rayTriangle_off np pt1 d d2 p2] at y1 y2
  simp only [first, hit]
  rw [← x1, ← x2, ← x3, ← y1, ← y2]
  unfold flatParity
  simp only [if_true, rayTriangle_off np pt1 d d1 p1, rayTriangle_off np pt1 d d2 p2]
  have o1 := off_values pt pt1 b.v0 b.v1 b.v2
  have o2 := off_values pt pt1 b.v0 b.v3 b.v2
  generalize rayTriangleOff pt pt1 b.v0 b.v1 b.v2 true = r at *
  generalize rayTriangleOff pt pt1 b.v0 b.v1 b.v2 false = r' at *
  generalize rayTriangleOff pt pt1 b.v0 b.v3 b.v2 true = q at *
  generalize rayTriangleOff pt pt1 b.v0 b.v3 b.v2 false = q' at *
  clear x1 x2 x3 xf y1 y2 y3
  have hq : q' = 0 ∨ q' = 1 ∨ q' = -1 := by omega
  rcases o1 with ⟨rfl, h | h | h⟩ | ⟨rfl, rfl⟩ <;> rcases hq with k | k | k <;> subst k <;> (try subst h) <;> simp

/-- So every ray through the open edge 1-2 of a plane patch is counted as a hit, where it should be shot again. -/
theorem plane_edge_violated (np : V3 → V3 → V3 → V3) (b : Patch) (pt pt1 d : V3) (hd : pt1 ≠ pt) (d1 : degenerate b.v0 b.v1 b.v2 = false)
    (d2 : degenerate b.v0 b.v3 b.v2 = false) (p1 : det pt b.v0 b.v1 b.v2 ≠ 0) (p2 : det pt b.v0 b.v3 b.v2 ≠ 0)
    (h : ∃ p, OnRay p pt (sub pt1 pt) ∧ Edge23 p b.v0 b.v1 b.v2) : flatParity np b pt pt1 d 1 = 1 :=
  (plane_exact_partial np b pt pt1 d hd d1 d2 p1 p2).1.2 (Or.inr (Or.inl h))

/-- A flat patch with a degenerate first triangle is folded along 0-2, whatever is drawn, unless both triangles are degenerate. -/
theorem degeneration_line_exact (np : V3 → V3 → V3 → V3) (v0 v1 v2 v3 : V3) (hd : degenerate v0 v1 v2 = true) :
    degeneration np ⟨v0, v1, v2, v3⟩ = if degenerate v0 v2 v3 = true then 1 else 2 := by
  have hz : ∀ n, orient3d n v0 v1 v2 = 0 := fun n => by
    have h := (degenerate_cross v0 v1 v2).1 hd
    simp only [V3.ext_iff, cross, sub] at h
    obtain ⟨hx, hy, hz⟩ := h
    unfold orient3d
    refine sgn_zero.2 ?_
    simp only [det]
    linear_combination (n.x - v0.x) * hx + (n.y - v0.y) * hy + (n.z - v0.z) * hz
  unfold degeneration
  simp only [hd, true_and, hz, zero_mul, le_refl, if_true]

/-- A ray from the inside of the tetrahedron of a patch that is not flat, and the point at which it leaves the tetrahedron: the answer is 2 on the patch; else -1 if
the ray leaves through the border of the patch, 1 if it leaves on the other side of the patch, and 0 if it leaves on the same side. -/
theorem inside_exact (np : V3 → V3 → V3 → V3) (b : Patch) (pt pt1 dir x : V3) (hV : det b.v0 b.v1 b.v2 b.v3 ≠ 0) (hin : insideTet b.v0 b.v1 b.v2 b.v3 pt = true)
    (hr : OnRay x pt (sub pt1 pt)) (hx : OnTet x b) :
    patchParity np b pt pt1 dir true =
      if side b pt = 0 then 2 else if side b x = 0 then -1 else if side b pt * side b x < 0 then 1 else 0 := by
  have hflat : b.flat = false := by
    unfold Patch.flat orient3d
    exact beq_eq_false_iff_ne.2 fun q => hV (sgn_zero.1 q)
  obtain ⟨a, b', c, d, ha, hb, hc, hd, hs, e⟩ := (tet_exact _ _ _ _ _ hV).1 hin
  obtain ⟨p, q, r, w, hp, hq, hr', hw, hs', hz, ex⟩ := hx
  obtain ⟨s, s0, es⟩ := hr
  have hW : 0 < funcG b.v3 b.v0 b.v1 b.v2 ^ 2 := by
    have h : funcG b.v3 b.v0 b.v1 b.v2 ≠ 0 := by rw [funcG_det]; exact neg_ne_zero.2 hV
    have := pow_pos (abs_pos.2 h) 2
    rwa [sq_abs] at this
  obtain ⟨f0, f1, f2, f3⟩ := facets_exit np b dir hV hs ha hb hc hd hs' hp hq hr' hw hz e (es.symm.trans ex) s0
  have g1 : side b pt = (a * c - b' * d) * funcG b.v3 b.v0 b.v1 b.v2 ^ 2 := by rw [side, e, phi_mix _ _ _ _ hs]
  have g2 : side b x = (p * r - q * w) * funcG b.v3 b.v0 b.v1 b.v2 ^ 2 := by rw [side, ex, phi_mix _ _ _ _ hs']
  have k1 := pair_code hp hq hr' hw hs' hz
  have k2 := pair_code (p := q) (q := p) (r := w) (w := r) hq hp hw hr' (by linarith) (by tauto)
  unfold patchParity
  simp only [hflat, Bool.not_false, if_true, Bool.not_true, Bool.false_eq_true, if_false]
  unfold correctPair
  simp only
  rw [show phi pt b.v0 b.v1 b.v2 b.v3 = side b pt from rfl, tet_phi_exact _ _ _ _ hV]
  by_cases h0 : side b pt = 0
  · rw [if_pos h0, if_pos h0]
  · rw [if_neg h0, if_neg h0]
    rcases lt_or_gt_of_ne h0 with h | h
    · rw [if_pos (by rw [sgn_neg h]; decide)]
      unfold facePair
      simp only [f0, f1]
      rw [k1]
      by_cases hX : p * r - q * w = 0
      · rw [if_pos hX, if_pos (show side b x = 0 by rw [g2, hX, zero_mul])]
      · have z : side b x ≠ 0 := by rw [g2]; exact mul_ne_zero hX hW.ne'
        rw [if_neg hX, if_neg z]
        rcases lt_or_gt_of_ne hX with k | k
        · rw [if_neg (show ¬0 < p * r - q * w from not_lt.2 k.le), if_neg (show ¬side b pt * side b x < 0 from not_lt.2 (by rw [g2]; exact (mul_pos_of_neg_of_neg h (mul_neg_of_neg_of_pos k hW)).le))]
        · rw [if_pos (show 0 < p * r - q * w from k), if_pos (show side b pt * side b x < 0 by rw [g2]; exact mul_neg_of_neg_of_pos h (mul_pos k hW))]
    · rw [if_neg (by rw [sgn_pos h]; decide)]
      unfold facePair
      simp only [f2, f3]
      rw [k2]
      by_cases hX : p * r - q * w = 0
      · rw [if_pos (show q * w - p * r = 0 by linarith), if_pos (show side b x = 0 by rw [g2, hX, zero_mul])]
      · have z : side b x ≠ 0 := by rw [g2]; exact mul_ne_zero hX hW.ne'
        have z' : q * w - p * r ≠ 0 := fun k => hX (by linarith)
        rw [if_neg z', if_neg z]
        rcases lt_or_gt_of_ne hX with k | k
        · rw [if_pos (show 0 < q * w - p * r by linarith), if_pos (show side b pt * side b x < 0 by rw [g2]; exact mul_neg_of_pos_of_neg h (mul_neg_of_neg_of_pos k hW))]
        · rw [if_neg (show ¬0 < q * w - p * r by linarith), if_neg (show ¬side b pt * side b x < 0 from not_lt.2 (by rw [g2]; exact (mul_pos h (mul_pos k hW)).le))]

/-- A ray from outside of the tetrahedron of a patch that is not flat, which enters through the interior of a facet and leaves through the interior of another one:
the parity is 1 if these points are on different sides of the patch, and 0 otherwise. -/
theorem outside_exact (np : V3 → V3 → V3 → V3) (b : Patch) (pt pt1 dir x y : V3) (i j : Fin 4) (hV : det b.v0 b.v1 b.v2 b.v3 ≠ 0) (p1 : det pt b.v0 b.v1 b.v2 ≠ 0)
    (p2 : det pt b.v0 b.v3 b.v2 ≠ 0) (hij : i ≠ j) (hx : OnRay x pt (sub pt1 pt)) (hy : OnRay y pt (sub pt1 pt)) (fx : InFacet i x b) (fy : InFacet j y b) :
    patchParity np b pt pt1 dir false = if side b x * side b y < 0 then 1 else 0 := by
  have hflat : b.flat = false := by
    unfold Patch.flat orient3d
    exact beq_eq_false_iff_ne.2 fun q => hV (sgn_zero.1 q)
  have hW : 0 < funcG b.v3 b.v0 b.v1 b.v2 ^ 2 := by
    have h : funcG b.v3 b.v0 b.v1 b.v2 ≠ 0 := by rw [funcG_det]; exact neg_ne_zero.2 hV
    have := pow_pos (abs_pos.2 h) 2
    rwa [sq_abs] at this
  obtain ⟨k, h, hp, hk, ex⟩ := fx
  obtain ⟨k', h', hp', hk', ey⟩ := fy
  obtain ⟨s, s0, es⟩ := hx
  obtain ⟨s', s0', es'⟩ := hy
  obtain ⟨f0, f1⟩ := facets_two np b dir hV p1 p2 hij h hp hk (es.symm.trans ex) s0 h' hp' hk' (es'.symm.trans ey) s0'
  have g1 : side b x = (k 0 * k 2 - k 1 * k 3) * funcG b.v3 b.v0 b.v1 b.v2 ^ 2 := by rw [side, ex, phi_mix _ _ _ _ hk]
  have g2 : side b y = (k' 0 * k' 2 - k' 1 * k' 3) * funcG b.v3 b.v0 b.v1 b.v2 ^ 2 := by rw [side, ey, phi_mix _ _ _ _ hk']
  have sg : ∀ (l : Fin 4) (c : Fin 4 → ℚ), c l = 0 → (∀ m, m ≠ l → 0 < c m) →
      (((l = 1 ∨ l = 3) → 0 < c 0 * c 2 - c 1 * c 3) ∧ ((l = 0 ∨ l = 2) → c 0 * c 2 - c 1 * c 3 < 0)) ∧ (c 3 = 0 ↔ l = 3) ∧ (c 1 = 0 ↔ l = 1) := by
    intro l c z pos
    have iff : ∀ m, c m = 0 ↔ l = m := fun m => ⟨fun q => by_contra fun n => (pos m (Ne.symm n)).ne' q, fun q => q ▸ z⟩
    refine ⟨⟨fun q => ?_, fun q => ?_⟩, iff 3, iff 1⟩
    · have m : 0 < c 0 * c 2 := mul_pos (pos 0 (by rcases q with rfl | rfl <;> decide)) (pos 2 (by rcases q with rfl | rfl <;> decide))
      rcases q with rfl | rfl <;> rw [z] <;> linarith
    · have m : 0 < c 1 * c 3 := mul_pos (pos 1 (by rcases q with rfl | rfl <;> decide)) (pos 3 (by rcases q with rfl | rfl <;> decide))
      rcases q with rfl | rfl <;> rw [z] <;> linarith
  obtain ⟨⟨a1, a2⟩, a3, a4⟩ := sg i k h hp
  obtain ⟨⟨b1, b2⟩, b3, b4⟩ := sg j k' h' hp'
  unfold patchParity
  simp only [hflat, Bool.not_false, if_true]
  rw [outside_of np b pt pt1 dir _ _ f0 f1]
  simp only [a3, a4, b3, b4]
  have hneg : (side b x * side b y < 0) ↔ ((i = 1 ∨ i = 3) ∧ (j = 0 ∨ j = 2) ∨ (i = 0 ∨ i = 2) ∧ (j = 1 ∨ j = 3)) := by
    rw [g1, g2]
    have c : ∀ l : Fin 4, (l = 1 ∨ l = 3) ∨ (l = 0 ∨ l = 2) := by decide
    have no : ∀ l m : Fin 4, (l = 1 ∨ l = 3) ∧ (m = 1 ∨ m = 3) ∨ (l = 0 ∨ l = 2) ∧ (m = 0 ∨ m = 2) →
        ¬((l = 1 ∨ l = 3) ∧ (m = 0 ∨ m = 2) ∨ (l = 0 ∨ l = 2) ∧ (m = 1 ∨ m = 3)) := by decide
    rcases c i with u | u <;> rcases c j with v | v
    · have := mul_pos (mul_pos (a1 u) hW) (mul_pos (b1 v) hW)
      exact iff_of_false this.not_gt (no _ _ (Or.inl ⟨u, v⟩))
    · exact iff_of_true (mul_neg_of_pos_of_neg (mul_pos (a1 u) hW) (mul_neg_of_neg_of_pos (b2 v) hW)) (Or.inl ⟨u, v⟩)
    · exact iff_of_true (mul_neg_of_neg_of_pos (mul_neg_of_neg_of_pos (a2 u) hW) (mul_pos (b1 v) hW)) (Or.inr ⟨u, v⟩)
    · have := mul_pos_of_neg_of_neg (mul_neg_of_neg_of_pos (a2 u) hW) (mul_neg_of_neg_of_pos (b2 v) hW)
      exact iff_of_false this.not_gt (no _ _ (Or.inr ⟨u, v⟩))
  simp only [hneg]
  clear hneg sg a1 a2 a3 a4 b1 b2 b3 b4 g1 g2 f0 f1 h h' hp hp'
  revert hij
  revert i j
  decide

/-- A ray from outside that misses the tetrahedron of the patch has the parity 0. -/
theorem outside_miss_exact (np : V3 → V3 → V3 → V3) (b : Patch) (pt pt1 dir : V3) (hd : pt1 ≠ pt) (hV : det b.v0 b.v1 b.v2 b.v3 ≠ 0) (p1 : det pt b.v0 b.v1 b.v2 ≠ 0)
    (p2 : det pt b.v0 b.v3 b.v2 ≠ 0) (h : ¬∃ x, OnRay x pt (sub pt1 pt) ∧ OnTet x b) : patchParity np b pt pt1 dir false = 0 := by
  have hflat : b.flat = false := by
    unfold Patch.flat orient3d
    exact beq_eq_false_iff_ne.2 fun q => hV (sgn_zero.1 q)
  have zero : ∀ t1 t2 t3 t4 : V3, (det t1 t2 t3 t4 ≠ 0) → det pt t1 t2 t3 ≠ 0 → (∀ p a b' c, 0 ≤ a → 0 ≤ b' → 0 ≤ c → a + b' + c = 1 → p = mix a b' c t1 t2 t3 → OnTet p b) →
      rayTriangle np pt pt1 dir t1 t2 t3 true = 0 := by
    intro t1 t2 t3 t4 hV' hp ht
    obtain ⟨r1, r2, -⟩ := ray_triangle_exact np pt pt1 dir t1 t2 t3 hp hd (not_degenerate hV') true
    have n1 : ¬rayTriangle np pt pt1 dir t1 t2 t3 true = 1 := fun q => by
      obtain ⟨p, hr, a, b', c, ha, hb, hc, hs, e⟩ := r1.1 q
      exact h ⟨p, hr, ht p a b' c ha.le hb.le hc.le hs e⟩
    have n2 : ¬rayTriangle np pt pt1 dir t1 t2 t3 false = -1 := fun q => by
      obtain ⟨p, hr, a, b', c, ha, hb, hc, hs, -, e⟩ := r2.1 q
      exact h ⟨p, hr, ht p a b' c ha hb hc hs e⟩
    rw [rayTriangle_off np pt1 dir (not_degenerate hV') hp] at n1 n2 ⊢
    rcases off_values pt pt1 t1 t2 t3 with ⟨e, k | k | k⟩ | ⟨-, k⟩
    · exact k
    · exact absurd k n1
    · exact absurd (e ▸ k) n2
    · exact absurd k n2
  obtain ⟨v0, v1, v2, v3⟩ := b
  simp only at hV p1 p2
  have dv : ∀ {D E : ℚ}, E ≠ 0 → D = E ∨ D = -E → D ≠ 0 := fun {D E} h0 h => by
    rcases h with h | h <;> rw [h]
    · exact h0
    · exact neg_ne_zero.2 h0
  have f0 : rayFacet np pt pt1 dir (Patch.facet ⟨v0, v1, v2, v3⟩ 0) = if False then 1 else 0 := by
    rw [if_neg (fun q => q)]
    refine (facet_cases ⟨v0, v1, v2, v3⟩ fun f => rayFacet np pt pt1 dir f = 0).1 ⟨?_, ?_⟩
    · refine zero v1 v2 v0 v3 (dv hV (by simp only [det]; first | (left; ring1) | (right; ring1))) (dv p1 (by simp only [det]; first | (left; ring1) | (right; ring1))) ?_
      intro p a b' c ha hb hc hs e
      exact ⟨c, a, b', 0, hc, ha, hb, le_rfl, by linarith, by tauto, by rw [e]; refine V3.ext ?_ ?_ ?_ <;> simp only [mix4, mix] <;> ring⟩
    · refine zero v1 v0 v2 v3 (dv hV (by simp only [det]; first | (left; ring1) | (right; ring1))) (dv p1 (by simp only [det]; first | (left; ring1) | (right; ring1))) ?_
      intro p a b' c ha hb hc hs e
      exact ⟨b', a, c, 0, hb, ha, hc, le_rfl, by linarith, by tauto, by rw [e]; refine V3.ext ?_ ?_ ?_ <;> simp only [mix4, mix] <;> ring⟩
  have f1 : rayFacet np pt pt1 dir (Patch.facet ⟨v0, v1, v2, v3⟩ 1) = if False then 1 else 0 := by
    rw [if_neg (fun q => q)]
    refine (facet_cases ⟨v0, v1, v2, v3⟩ fun f => rayFacet np pt pt1 dir f = 0).2.1 ⟨?_, ?_⟩
    · refine zero v3 v0 v2 v1 (dv hV (by simp only [det]; first | (left; ring1) | (right; ring1))) (dv p2 (by simp only [det]; first | (left; ring1) | (right; ring1))) ?_
      intro p a b' c ha hb hc hs e
      exact ⟨b', 0, c, a, hb, le_rfl, hc, ha, by linarith, by tauto, by rw [e]; refine V3.ext ?_ ?_ ?_ <;> simp only [mix4, mix] <;> ring⟩
    · refine zero v3 v2 v0 v1 (dv hV (by simp only [det]; first | (left; ring1) | (right; ring1))) (dv p2 (by simp only [det]; first | (left; ring1) | (right; ring1))) ?_
      intro p a b' c ha hb hc hs e
      exact ⟨c, 0, b', a, hc, le_rfl, hb, ha, by linarith, by tauto, by rw [e]; refine V3.ext ?_ ?_ ?_ <;> simp only [mix4, mix] <;> ring⟩
  unfold patchParity
  simp only [hflat, Bool.not_false, if_true]
  rw [outside_of np _ pt pt1 dir _ _ f0 f1]
  simp

/-- The answer of a triangle to a ray from a point off its plane, from the weights of the point in which the ray meets the triangle. -/
theorem triangle_weights (np : V3 → V3 → V3 → V3) {pt pt1 t1 t2 t3 x : V3} (dir : V3) {a' b' c' : ℚ} (hp : det pt t1 t2 t3 ≠ 0) (hd : pt1 ≠ pt)
    (ht : degenerate t1 t2 t3 = false) (hx : OnRay x pt (sub pt1 pt)) (ha : 0 ≤ a') (hb : 0 ≤ b') (hc : 0 ≤ c') (hs : a' + b' + c' = 1)
    (e : x = mix a' b' c' t1 t2 t3) :
    (b' = 0 ∨ c' = 0 → rayTriangle np pt pt1 dir t1 t2 t3 true = -1) ∧ (a' = 0 → 0 < b' → 0 < c' → rayTriangle np pt pt1 dir t1 t2 t3 true = 3) := by
  obtain ⟨-, r2, r3⟩ := ray_triangle_exact np pt pt1 dir t1 t2 t3 hp hd ht true
  refine ⟨fun h => ?_, fun h0 h1 h2 => r3.2 ⟨x, hx, a', b', c', h0, h1, h2, hs, e⟩⟩
  have m : rayTriangle np pt pt1 dir t1 t2 t3 false = -1 := r2.2 ⟨x, hx, a', b', c', ha, hb, hc, hs, by tauto, e⟩
  have n : ¬rayTriangle np pt pt1 dir t1 t2 t3 true = 3 := by
    intro q
    obtain ⟨y, ⟨s', hs', ey⟩, k1, k2, k3, h1, h2, h3, hk, ek⟩ := r3.1 q
    obtain ⟨s, hs0, ex⟩ := hx
    have hV : det t3 pt t1 t2 ≠ 0 := by
      have : det t3 pt t1 t2 = -det pt t1 t2 t3 := by simp only [det]; ring
      rw [this]; exact neg_ne_zero.2 hp
    obtain ⟨-, u2, u3⟩ := hit_coords hs (ex.symm.trans e)
    obtain ⟨-, w2, w3⟩ := hit_coords hk (ey.symm.trans ek)
    have z : ∀ {A B k D : ℚ}, D ≠ 0 → s * A = B * D → s' * A = k * D → 0 < k → B = 0 → False := by
      intro A B k D hD g1 g2 hk0 hB
      rw [hB, zero_mul] at g1
      have hA : A = 0 := (mul_eq_zero.1 g1).resolve_left hs0.ne'
      rw [hA, mul_zero] at g2
      rcases mul_eq_zero.1 g2.symm with h | h
      · exact hk0.ne' h
      · exact hD h
    rcases h with h | h
    · exact z hV u2 w2 h2 h
    · exact z hV u3 w3 h3 h
  rw [rayTriangle_off np pt1 dir ht hp] at m n ⊢
  rcases off_values pt pt1 t1 t2 t3 with ⟨q, -⟩ | ⟨q, -⟩
  · exact q.trans m
  · exact absurd q n

/-- A ray from outside that meets one of the four edges of the patch, or a corner, is not decided: another direction is drawn. -/
theorem outer_edge_exact (np : V3 → V3 → V3 → V3) (b : Patch) (pt pt1 dir x : V3) (p q r w : ℚ) (hd : pt1 ≠ pt) (hV : det b.v0 b.v1 b.v2 b.v3 ≠ 0)
    (p1 : det pt b.v0 b.v1 b.v2 ≠ 0) (p2 : det pt b.v0 b.v3 b.v2 ≠ 0) (hx : OnRay x pt (sub pt1 pt)) (hp : 0 ≤ p) (hq : 0 ≤ q) (hr : 0 ≤ r) (hw : 0 ≤ w)
    (hs : p + q + r + w = 1) (e : x = mix4 p q r w b.v0 b.v1 b.v2 b.v3)
    (h : (r = 0 ∧ w = 0) ∨ (p = 0 ∧ w = 0) ∨ (p = 0 ∧ q = 0) ∨ (q = 0 ∧ r = 0)) : patchParity np b pt pt1 dir false = -1 := by
  have hflat : b.flat = false := by
    unfold Patch.flat orient3d
    exact beq_eq_false_iff_ne.2 fun q => hV (sgn_zero.1 q)
  obtain ⟨v0, v1, v2, v3⟩ := b
  simp only at hV p1 p2 e
  have dv : ∀ {D E : ℚ}, E ≠ 0 → D = E ∨ D = -E → D ≠ 0 := fun {D E} h0 h => by
    rcases h with h | h <;> rw [h]
    · exact h0
    · exact neg_ne_zero.2 h0
  have key : rayFacet np pt pt1 dir (Patch.facet ⟨v0, v1, v2, v3⟩ 0) = -1 ∨ rayFacet np pt pt1 dir (Patch.facet ⟨v0, v1, v2, v3⟩ 1) = -1 := by
    by_cases hw0 : w = 0 ∧ (p = 0 ∨ r = 0)
    · left
      refine (facet_cases ⟨v0, v1, v2, v3⟩ fun f => rayFacet np pt pt1 dir f = -1).1 ⟨?_, ?_⟩
      · exact (triangle_weights np dir (t1 := v1) (t2 := v2) (t3 := v0) (a' := q) (b' := r) (c' := p) (dv p1 (by simp only [det]; first | (left; ring1) | (right; ring1))) hd
          (not_degenerate (t4 := v3) (dv hV (by simp only [det]; first | (left; ring1) | (right; ring1)))) hx hq hr hp (by linarith [hw0.1])
          (by rw [e, hw0.1]; refine V3.ext ?_ ?_ ?_ <;> simp only [mix4, mix] <;> ring)).1 (by tauto)
      · exact (triangle_weights np dir (t1 := v1) (t2 := v0) (t3 := v2) (a' := q) (b' := p) (c' := r) (dv p1 (by simp only [det]; first | (left; ring1) | (right; ring1))) hd
          (not_degenerate (t4 := v3) (dv hV (by simp only [det]; first | (left; ring1) | (right; ring1)))) hx hq hp hr (by linarith [hw0.1])
          (by rw [e, hw0.1]; refine V3.ext ?_ ?_ ?_ <;> simp only [mix4, mix] <;> ring)).1 (by tauto)
    · right
      have hq0 : q = 0 ∧ (p = 0 ∨ r = 0) := by tauto
      refine (facet_cases ⟨v0, v1, v2, v3⟩ fun f => rayFacet np pt pt1 dir f = -1).2.1 ⟨?_, ?_⟩
      · exact (triangle_weights np dir (t1 := v3) (t2 := v0) (t3 := v2) (a' := w) (b' := p) (c' := r) (dv p2 (by simp only [det]; first | (left; ring1) | (right; ring1))) hd
          (not_degenerate (t4 := v1) (dv hV (by simp only [det]; first | (left; ring1) | (right; ring1)))) hx hw hp hr (by linarith [hq0.1])
          (by rw [e, hq0.1]; refine V3.ext ?_ ?_ ?_ <;> simp only [mix4, mix] <;> ring)).1 (by tauto)
      · exact (triangle_weights np dir (t1 := v3) (t2 := v2) (t3 := v0) (a' := w) (b' := r) (c' := p) (dv p2 (by simp only [det]; first | (left; ring1) | (right; ring1))) hd
          (not_degenerate (t4 := v1) (dv hV (by simp only [det]; first | (left; ring1) | (right; ring1)))) hx hw hr hp (by linarith [hq0.1])
          (by rw [e, hq0.1]; refine V3.ext ?_ ?_ ?_ <;> simp only [mix4, mix] <;> ring)).1 (by tauto)
  unfold patchParity
  simp only [hflat, Bool.not_false, if_true]
  unfold outsideParity
  exact if_pos key

/-- A ray through the middle of the edge 0-1. -/
example (np : V3 → V3 → V3 → V3) (dir : V3) : patchParity np ⟨⟨0, 0, 0⟩, ⟨1, 0, 0⟩, ⟨0, 1, 0⟩, ⟨0, 0, 1⟩⟩ ⟨1, -1, -1⟩ ⟨0, 1, 1⟩ dir false = -1 :=
  outer_edge_exact np _ _ _ dir ⟨1 / 2, 0, 0⟩ (1 / 2) (1 / 2) 0 0 (by decide +kernel) (by decide +kernel) (by decide +kernel) (by decide +kernel)
    ⟨1 / 2, by decide +kernel, by decide +kernel⟩ (by decide +kernel) (by decide +kernel) (by decide +kernel) (by decide +kernel) (by decide +kernel) (by decide +kernel)
    (Or.inl ⟨rfl, rfl⟩)

/-- A ray from outside through the diagonal 0-2: the parity is 1 if the ray comes from the outer side of both facets at the diagonal, and 0 otherwise. -/
theorem diagonal_exact (np : V3 → V3 → V3 → V3) (b : Patch) (pt pt1 dir x : V3) (p r : ℚ) (hd : pt1 ≠ pt) (hV : det b.v0 b.v1 b.v2 b.v3 ≠ 0)
    (p1 : det pt b.v0 b.v1 b.v2 ≠ 0) (p2 : det pt b.v0 b.v3 b.v2 ≠ 0) (hx : OnRay x pt (sub pt1 pt)) (hp : 0 < p) (hr : 0 < r) (hs : p + r = 1)
    (e : x = mix4 p 0 r 0 b.v0 b.v1 b.v2 b.v3) : patchParity np b pt pt1 dir false =
      if det pt b.v0 b.v1 b.v2 * det b.v3 b.v0 b.v1 b.v2 < 0 ∧ det pt b.v0 b.v3 b.v2 * det b.v1 b.v0 b.v3 b.v2 < 0 then 1 else 0 := by
  have hflat : b.flat = false := by
    unfold Patch.flat orient3d
    exact beq_eq_false_iff_ne.2 fun q => hV (sgn_zero.1 q)
  obtain ⟨v0, v1, v2, v3⟩ := b
  simp only at hV p1 p2 e
  have dv : ∀ {D E : ℚ}, E ≠ 0 → D = E ∨ D = -E → D ≠ 0 := fun {D E} h0 h => by
    rcases h with h | h <;> rw [h]
    · exact h0
    · exact neg_ne_zero.2 h0
  have f0 : rayFacet np pt pt1 dir (Patch.facet ⟨v0, v1, v2, v3⟩ 0) = 3 := by
    refine (facet_cases ⟨v0, v1, v2, v3⟩ fun f => rayFacet np pt pt1 dir f = 3).1 ⟨?_, ?_⟩
    · exact (triangle_weights np dir (t1 := v1) (t2 := v2) (t3 := v0) (a' := 0) (b' := r) (c' := p) (dv p1 (by simp only [det]; first | (left; ring1) | (right; ring1))) hd
          (not_degenerate (t4 := v3) (dv hV (by simp only [det]; first | (left; ring1) | (right; ring1)))) hx le_rfl hr.le hp.le (by linarith)
          (by rw [e]; refine V3.ext ?_ ?_ ?_ <;> simp only [mix4, mix] <;> ring)).2 rfl hr hp
    · exact (triangle_weights np dir (t1 := v1) (t2 := v0) (t3 := v2) (a' := 0) (b' := p) (c' := r) (dv p1 (by simp only [det]; first | (left; ring1) | (right; ring1))) hd
          (not_degenerate (t4 := v3) (dv hV (by simp only [det]; first | (left; ring1) | (right; ring1)))) hx le_rfl hp.le hr.le (by linarith)
          (by rw [e]; refine V3.ext ?_ ?_ ?_ <;> simp only [mix4, mix] <;> ring)).2 rfl hp hr
  have f1 : rayFacet np pt pt1 dir (Patch.facet ⟨v0, v1, v2, v3⟩ 1) = 3 := by
    refine (facet_cases ⟨v0, v1, v2, v3⟩ fun f => rayFacet np pt pt1 dir f = 3).2.1 ⟨?_, ?_⟩
    · exact (triangle_weights np dir (t1 := v3) (t2 := v0) (t3 := v2) (a' := 0) (b' := p) (c' := r) (dv p2 (by simp only [det]; first | (left; ring1) | (right; ring1))) hd
          (not_degenerate (t4 := v1) (dv hV (by simp only [det]; first | (left; ring1) | (right; ring1)))) hx le_rfl hp.le hr.le (by linarith)
          (by rw [e]; refine V3.ext ?_ ?_ ?_ <;> simp only [mix4, mix] <;> ring)).2 rfl hp hr
    · exact (triangle_weights np dir (t1 := v3) (t2 := v2) (t3 := v0) (a' := 0) (b' := r) (c' := p) (dv p2 (by simp only [det]; first | (left; ring1) | (right; ring1))) hd
          (not_degenerate (t4 := v1) (dv hV (by simp only [det]; first | (left; ring1) | (right; ring1)))) hx le_rfl hr.le hp.le (by linarith)
          (by rw [e]; refine V3.ext ?_ ?_ ?_ <;> simp only [mix4, mix] <;> ring)).2 rfl hr hp
  have sg : ∀ D : ℚ, sgn D > 0 ↔ 0 < D := fun D => by
    rcases lt_trichotomy D 0 with h | h | h
    · rw [sgn_neg h]; exact ⟨fun q => absurd q (by decide), fun q => absurd q (not_lt.2 h.le)⟩
    · rw [sgn_zero.2 h, h]; exact ⟨fun q => absurd q (by decide), fun q => absurd q (lt_irrefl _)⟩
    · rw [sgn_pos h]; exact ⟨fun _ => h, fun _ => by decide⟩
  have o0 : ∀ f : V3 × V3 × V3, f = Patch.facet ⟨v0, v1, v2, v3⟩ 0 → pointTriangle np pt f.1 f.2.1 f.2.2 false = 0 ∧
      (orient3d pt f.1 f.2.1 f.2.2 > 0 ↔ det pt v0 v1 v2 * det v3 v0 v1 v2 < 0) := by
    rintro f rfl
    unfold Patch.facet facets pointTriangle
    split
    · rename_i hle
      have hpos : 0 < det v0 v1 v2 v3 := by
        rcases lt_or_gt_of_ne hV with k | k
        · rw [orient3d, sgn_neg k] at hle; exact absurd hle (by decide)
        · exact k
      have e1 : det pt v1 v2 v0 = det pt v0 v1 v2 := by simp only [det]; ring
      have e2 : det v3 v0 v1 v2 = -det v0 v1 v2 v3 := by simp only [det]; ring
      refine ⟨if_pos fun q => ?_, ?_⟩
      · exact p1 (e1 ▸ sgn_zero.1 q)
      · show sgn (det pt v1 v2 v0) > 0 ↔ _
        rw [sg, e1, e2]
        constructor
        · intro q; nlinarith
        · intro q; by_contra n; nlinarith
    · rename_i hle
      have hneg : det v0 v1 v2 v3 < 0 := by
        rcases lt_or_gt_of_ne hV with k | k
        · exact k
        · rw [orient3d, sgn_pos k] at hle; exact absurd (by decide) hle
      have e1 : det pt v1 v0 v2 = -det pt v0 v1 v2 := by simp only [det]; ring
      have e2 : det v3 v0 v1 v2 = -det v0 v1 v2 v3 := by simp only [det]; ring
      refine ⟨if_pos fun q => ?_, ?_⟩
      · exact p1 (neg_eq_zero.1 (e1 ▸ sgn_zero.1 q))
      · show sgn (det pt v1 v0 v2) > 0 ↔ _
        rw [sg, e1, e2]
        constructor
        · intro q; nlinarith
        · intro q; by_contra n; nlinarith
  have o1 : ∀ f : V3 × V3 × V3, f = Patch.facet ⟨v0, v1, v2, v3⟩ 1 → pointTriangle np pt f.1 f.2.1 f.2.2 false = 0 ∧
      (orient3d pt f.1 f.2.1 f.2.2 > 0 ↔ det pt v0 v3 v2 * det v1 v0 v3 v2 < 0) := by
    rintro f rfl
    unfold Patch.facet facets pointTriangle
    split
    · rename_i hle
      have hpos : 0 < det v0 v1 v2 v3 := by
        rcases lt_or_gt_of_ne hV with k | k
        · rw [orient3d, sgn_neg k] at hle; exact absurd hle (by decide)
        · exact k
      have e1 : det pt v3 v0 v2 = -det pt v0 v3 v2 := by simp only [det]; ring
      have e2 : det v1 v0 v3 v2 = det v0 v1 v2 v3 := by simp only [det]; ring
      refine ⟨if_pos fun q => ?_, ?_⟩
      · exact p2 (neg_eq_zero.1 (e1 ▸ sgn_zero.1 q))
      · show sgn (det pt v3 v0 v2) > 0 ↔ _
        rw [sg, e1, e2]
        constructor
        · intro q; nlinarith
        · intro q; by_contra n; nlinarith
    · rename_i hle
      have hneg : det v0 v1 v2 v3 < 0 := by
        rcases lt_or_gt_of_ne hV with k | k
        · exact k
        · rw [orient3d, sgn_pos k] at hle; exact absurd (by decide) hle
      have e1 : det pt v3 v2 v0 = det pt v0 v3 v2 := by simp only [det]; ring
      have e2 : det v1 v0 v3 v2 = det v0 v1 v2 v3 := by simp only [det]; ring
      refine ⟨if_pos fun q => ?_, ?_⟩
      · exact p2 (e1 ▸ sgn_zero.1 q)
      · show sgn (det pt v3 v2 v0) > 0 ↔ _
        rw [sg, e1, e2]
        constructor
        · intro q; nlinarith
        · intro q; by_contra n; nlinarith
  obtain ⟨t0, s0⟩ := o0 _ rfl
  obtain ⟨t1, s1⟩ := o1 _ rfl
  unfold patchParity
  simp only [hflat, Bool.not_false, if_true]
  unfold outsideParity
  simp only [f0, f1, t0, t1, s0, s1]
  simp

/-- A ray into the tetrahedron through the middle of the diagonal. -/
example (np : V3 → V3 → V3 → V3) (dir : V3) : patchParity np ⟨⟨0, 0, 0⟩, ⟨1, 0, 0⟩, ⟨0, 1, 0⟩, ⟨0, 0, 1⟩⟩ ⟨-1, 1 / 2, -1⟩ ⟨1, 1 / 2, 1⟩ dir false = 1 := by
  rw [diagonal_exact np _ _ _ dir ⟨0, 1 / 2, 0⟩ (1 / 2) (1 / 2) (by decide +kernel) (by decide +kernel) (by decide +kernel) (by decide +kernel)
    ⟨1 / 2, by decide +kernel, by decide +kernel⟩ (by decide +kernel) (by decide +kernel) (by decide +kernel) (by decide +kernel)]
  decide +kernel

/-- A ray and a triangle whose corners are on a line: 2 if the ray starts on it, -1 if it meets it otherwise, and 0 if not, except that -1 is also returned for a
start on the second of the two edges only, with a ray that goes on along the first one. -/
theorem triangle_line_exact (np : V3 → V3 → V3 → V3) (hnp : ∀ a b c, degenerate a b c = false → det (np a b c) a b c ≠ 0) (pt d t0 t1 t2 : V3)
    (ht : degenerate t0 t1 t2 = true) (hy : d.y ≠ 0) (hz : d.z ≠ 0) :
    (triangleParity np pt (addMul pt 1 d) d t0 t1 t2 = 2 ↔ OnSegment pt t0 t1 ∨ OnSegment pt t1 t2 ∧ ¬∃ p, OnRay p pt d ∧ OnSegment p t0 t1) ∧
    (triangleParity np pt (addMul pt 1 d) d t0 t1 t2 = -1 ↔ ¬OnSegment pt t0 t1 ∧
      ((∃ p, OnRay p pt d ∧ OnSegment p t0 t1) ∨ ¬OnSegment pt t1 t2 ∧ ∃ p, OnRay p pt d ∧ OnSegment p t1 t2)) ∧
    (triangleParity np pt (addMul pt 1 d) d t0 t1 t2 = 0 ↔ ¬OnSegment pt t0 t1 ∧ ¬OnSegment pt t1 t2 ∧
      ¬∃ p, OnRay p pt d ∧ (OnSegment p t0 t1 ∨ OnSegment p t1 t2)) := by
  obtain ⟨a2, a1⟩ := ray_segment_exact_partial np pt d t0 t1 hy hz (hnp _ _ _)
  obtain ⟨b2, b1⟩ := ray_segment_exact_partial np pt d t1 t2 hy hz (hnp _ _ _)
  have un : (∃ p, OnRay p pt d ∧ (OnSegment p t0 t1 ∨ OnSegment p t1 t2)) ↔
      ((∃ p, OnRay p pt d ∧ OnSegment p t0 t1) ∨ ∃ p, OnRay p pt d ∧ OnSegment p t1 t2) := by
    constructor
    · rintro ⟨p, hr, h | h⟩
      · exact Or.inl ⟨p, hr, h⟩
      · exact Or.inr ⟨p, hr, h⟩
    · rintro (⟨p, hr, h⟩ | ⟨p, hr, h⟩)
      · exact ⟨p, hr, Or.inl h⟩
      · exact ⟨p, hr, Or.inr h⟩
  rw [un]
  unfold triangleParity
  simp only [ht, Bool.not_true, Bool.false_eq_true, if_false]
  generalize raySegment np pt (addMul pt 1 d) d t0 t1 = i1 at a1 a2
  generalize raySegment np pt (addMul pt 1 d) d t1 t2 = i2 at b1 b2
  generalize (∃ p, OnRay p pt d ∧ OnSegment p t0 t1) = R1 at *
  generalize (∃ p, OnRay p pt d ∧ OnSegment p t1 t2) = R2 at *
  generalize OnSegment pt t0 t1 = S1 at *
  generalize OnSegment pt t1 t2 = S2 at *
  clear un
  have n2 : ¬(2 : Int) = -1 ∧ ¬(2 : Int) = 0 ∧ ¬(-1 : Int) = 2 ∧ ¬(-1 : Int) = 0 ∧ ¬(0 : Int) = 2 ∧ ¬(0 : Int) = -1 := by decide
  by_cases h1 : i1 = 2
  · rw [if_pos h1]; have := a2.1 h1; tauto
  · rw [if_neg h1]
    by_cases h2 : i1 = 1
    · rw [if_pos h2]; have := a1.1 h2; tauto
    · rw [if_neg h2]
      by_cases h3 : i2 = 2
      · rw [if_pos h3]; have := b2.1 h3; tauto
      · rw [if_neg h3]
        by_cases h4 : i2 = 1
        · rw [if_pos h4]; have := b1.1 h4; tauto
        · rw [if_neg h4]; tauto

/-- A triangle on the diagonal of space and a ray from its middle. -/
example (np : V3 → V3 → V3 → V3) (hnp : ∀ a b c, degenerate a b c = false → det (np a b c) a b c ≠ 0) :
    triangleParity np ⟨1, 1, 1⟩ (addMul ⟨1, 1, 1⟩ 1 ⟨1, 2, 3⟩) ⟨1, 2, 3⟩ ⟨0, 0, 0⟩ ⟨2, 2, 2⟩ ⟨5, 5, 5⟩ = 2 :=
  (triangle_line_exact np hnp ⟨1, 1, 1⟩ ⟨1, 2, 3⟩ ⟨0, 0, 0⟩ ⟨2, 2, 2⟩ ⟨5, 5, 5⟩ (by decide +kernel) (by decide +kernel) (by decide +kernel)).1.2
    (Or.inl ⟨1 / 2, by decide +kernel, by decide +kernel, by decide +kernel⟩)

/-- A ray that goes away from the tetrahedron. -/
example (np : V3 → V3 → V3 → V3) (dir : V3) : patchParity np ⟨⟨0, 0, 0⟩, ⟨1, 0, 0⟩, ⟨0, 1, 0⟩, ⟨0, 0, 1⟩⟩ ⟨2, 2, 2⟩ ⟨3, 3, 3⟩ dir false = 0 := by
  refine outside_miss_exact np _ _ _ dir (by decide +kernel) (by decide +kernel) (by decide +kernel) (by decide +kernel) ?_
  rintro ⟨x, ⟨t, ht, e⟩, p, q, r, w, hp, hq, hr, hw, hs, -, e'⟩
  rw [e] at e'
  simp only [V3.ext_iff, addMul, sub, mix4] at e'
  linarith [e'.1]

/-- A ray next to the one of `diagonal_violated`: the parity is 1. -/
example (np : V3 → V3 → V3 → V3) (dir : V3) :
    patchParity np ⟨⟨0, 0, 0⟩, ⟨1, 0, 0⟩, ⟨0, 1, 0⟩, ⟨0, 0, 1⟩⟩ ⟨1, 1 / 4, 1⟩ ⟨0, 1 / 4, 1 / 8⟩ dir false = 1 := by
  rw [outside_exact np _ _ _ dir ⟨1 / 3, 1 / 4, 5 / 12⟩ ⟨0, 1 / 4, 1 / 8⟩ 0 1 (by decide +kernel) (by decide +kernel) (by decide +kernel) (by decide)
    ⟨2 / 3, by decide +kernel, by decide +kernel⟩ ⟨1, by decide +kernel, by decide +kernel⟩
    ⟨fun l => ([0, 1 / 3, 1 / 4, 5 / 12] : List ℚ).getD l 0, by decide +kernel, by decide +kernel, by decide +kernel, by decide +kernel⟩
    ⟨fun l => ([5 / 8, 0, 1 / 4, 1 / 8] : List ℚ).getD l 0, by decide +kernel, by decide +kernel, by decide +kernel, by decide +kernel⟩]
  decide +kernel

/-- A contact that is missed, whatever is drawn: a vertex goes through the interior of a face that does not move. -/
theorem vf_missed_violated : ∃ vs fs0 fs1 fs2 ve fe0 fe1 fe2 : V3, (∃ t a b c, 0 < t ∧ t < 1 ∧ 0 < a ∧ 0 < b ∧ 0 < c ∧
    VFTouch vs fs0 fs1 fs2 ve fe0 fe1 fe2 t a b c) ∧
    ∀ np, Outside np → ∀ draws, vertexFace np draws vs fs0 fs1 fs2 ve fe0 fe1 fe2 = false := by
  refine ⟨⟨0, 0, 0⟩, ⟨1, 1, 0⟩, ⟨-1, 0, -1⟩, ⟨0, -1, 0⟩, ⟨-1, 0, -2⟩, ⟨1, 1, 0⟩, ⟨-1, 0, -1⟩, ⟨0, -1, 0⟩,
    ⟨1 / 4, 1 / 4, 1 / 2, 1 / 4, by decide +kernel, by decide +kernel, by decide +kernel, by decide +kernel, by decide +kernel, by unfold VFTouch; decide +kernel⟩, ?_⟩
  intro np hnp draws
  have h := easy_prism hnp (p := prism ⟨0, 0, 0⟩ ⟨1, 1, 0⟩ ⟨-1, 0, -1⟩ ⟨0, -1, 0⟩ ⟨-1, 0, -2⟩ ⟨1, 1, 0⟩ ⟨-1, 0, -1⟩ ⟨0, -1, 0⟩) (pt := ⟨0, 0, 0⟩)
    (by
      simp only [prismPatches, List.forall_mem_cons, List.not_mem_nil, false_imp_iff, implies_true, and_true]
      exact ⟨⟨by decide +kernel, by decide +kernel, by decide +kernel, by decide +kernel, by decide +kernel, by decide +kernel, by decide +kernel⟩,
        ⟨by decide +kernel, by decide +kernel, by decide +kernel, by decide +kernel, by decide +kernel, by decide +kernel, by decide +kernel⟩,
        ⟨by decide +kernel, by decide +kernel, by decide +kernel, by decide +kernel, by decide +kernel, by decide +kernel, by decide +kernel⟩⟩)
    (by decide +kernel) (by decide +kernel) (by decide +kernel) (by decide +kernel) ⟨1, 0, 0⟩ ⟨1, 0, 0⟩
  have h0 : insidePrism ones (prism ⟨0, 0, 0⟩ ⟨1, 1, 0⟩ ⟨-1, 0, -1⟩ ⟨0, -1, 0⟩ ⟨-1, 0, -2⟩ ⟨1, 1, 0⟩ ⟨-1, 0, -1⟩ ⟨0, -1, 0⟩) ⟨0, 0, 0⟩ ⟨1, 0, 0⟩ ⟨1, 0, 0⟩ = 0 := by
    decide +kernel
  unfold vertexFace
  simp only
  rw [show boxCut (prism ⟨0, 0, 0⟩ ⟨1, 1, 0⟩ ⟨-1, 0, -1⟩ ⟨0, -1, 0⟩ ⟨-1, 0, -2⟩ ⟨1, 1, 0⟩ ⟨-1, 0, -1⟩ ⟨0, -1, 0⟩) = true by decide +kernel]
  rw [if_neg (by decide), shoot_first _ _ (by rw [h, h0]), h, h0]
  rfl

/-- A contact that is reported, whatever is drawn, where there is none. -/
theorem vf_false_violated : ∃ vs fs0 fs1 fs2 ve fe0 fe1 fe2 : V3, (¬∃ t a b c, VFTouch vs fs0 fs1 fs2 ve fe0 fe1 fe2 t a b c) ∧
    ∀ np, Outside np → ∀ draws, vertexFace np draws vs fs0 fs1 fs2 ve fe0 fe1 fe2 = true := by
  refine ⟨⟨0, 0, 0⟩, ⟨-1, 0, -1⟩, ⟨0, -2, 0⟩, ⟨0, 1, 1⟩, ⟨1, -3, 0⟩, ⟨-1, 0, -1⟩, ⟨0, -2, 0⟩, ⟨0, 1, 1⟩, ?_, ?_⟩
  · rintro ⟨t, a, b, c, ht, _, ha, hb, hc, hs, e⟩
    simp only [V3.ext_iff, at', addMul, sub, mix] at e
    obtain ⟨ex, ey, ez⟩ := e
    linarith
  intro np hnp draws
  have h := easy_prism hnp (p := prism ⟨0, 0, 0⟩ ⟨-1, 0, -1⟩ ⟨0, -2, 0⟩ ⟨0, 1, 1⟩ ⟨1, -3, 0⟩ ⟨-1, 0, -1⟩ ⟨0, -2, 0⟩ ⟨0, 1, 1⟩) (pt := ⟨0, 0, 0⟩)
    (by
      simp only [prismPatches, List.forall_mem_cons, List.not_mem_nil, false_imp_iff, implies_true, and_true]
      exact ⟨⟨by decide +kernel, by decide +kernel, by decide +kernel, by decide +kernel, by decide +kernel, by decide +kernel, by decide +kernel⟩,
        ⟨by decide +kernel, by decide +kernel, by decide +kernel, by decide +kernel, by decide +kernel, by decide +kernel, by decide +kernel⟩,
        ⟨by decide +kernel, by decide +kernel, by decide +kernel, by decide +kernel, by decide +kernel, by decide +kernel, by decide +kernel⟩⟩)
    (by decide +kernel) (by decide +kernel) (by decide +kernel) (by decide +kernel) ⟨1, 0, 0⟩ ⟨1, 0, 0⟩
  have h0 : insidePrism ones (prism ⟨0, 0, 0⟩ ⟨-1, 0, -1⟩ ⟨0, -2, 0⟩ ⟨0, 1, 1⟩ ⟨1, -3, 0⟩ ⟨-1, 0, -1⟩ ⟨0, -2, 0⟩ ⟨0, 1, 1⟩) ⟨0, 0, 0⟩ ⟨1, 0, 0⟩ ⟨1, 0, 0⟩ = 1 := by
    decide +kernel
  unfold vertexFace
  simp only
  rw [show boxCut (prism ⟨0, 0, 0⟩ ⟨-1, 0, -1⟩ ⟨0, -2, 0⟩ ⟨0, 1, 1⟩ ⟨1, -3, 0⟩ ⟨-1, 0, -1⟩ ⟨0, -2, 0⟩ ⟨0, 1, 1⟩) = true by decide +kernel]
  rw [if_neg (by decide), shoot_first _ _ (by rw [h, h0]; decide), h, h0]
  rfl

/-- A ray that leaves the tetrahedron of a patch through the diagonal 0-2, from a point outside of the tetrahedron: it goes through the patch in exactly one point,
but the parity is 0. -/
theorem diagonal_violated : ∃ (b : Patch) (pt d : V3), b.flat = false ∧ insideTet b.v0 b.v1 b.v2 b.v3 pt = false ∧
    (∃! p, OnRay p pt d ∧ ∃ u v, 0 ≤ u ∧ u ≤ 1 ∧ 0 ≤ v ∧ v ≤ 1 ∧ p = patch u v b.v0 b.v1 b.v2 b.v3) ∧
    (∃ x y, OnRay x pt d ∧ OnRay y pt d ∧ OnTet x b ∧ OnTet y b ∧ side b x * side b y < 0) ∧ ∀ np, patchParity np b pt (addMul pt 1 d) d false = 0 := by
  have hc : Curved ⟨⟨0, 0, 0⟩, ⟨1, 0, 0⟩, ⟨0, 1, 0⟩, ⟨0, 0, 1⟩⟩ ⟨1, 1 / 4, 1⟩ := ⟨by decide +kernel, by decide +kernel, by decide +kernel⟩
  refine ⟨⟨⟨0, 0, 0⟩, ⟨1, 0, 0⟩, ⟨0, 1, 0⟩, ⟨0, 0, 1⟩⟩, ⟨1, 1 / 4, 1⟩, ⟨-1, 0, -1⟩, by decide +kernel, by decide +kernel,
    ⟨⟨1 / 4, 1 / 4, 1 / 4⟩, ⟨⟨3 / 4, by decide +kernel, by decide +kernel⟩, 1 / 2, 1 / 2, by decide +kernel, by decide +kernel, by decide +kernel, by decide +kernel,
      by decide +kernel⟩, ?_⟩, ⟨⟨3 / 8, 1 / 4, 3 / 8⟩, ⟨0, 1 / 4, 0⟩, ⟨5 / 8, by decide +kernel, by decide +kernel⟩, ⟨1, by decide +kernel, by decide +kernel⟩,
      ⟨0, 3 / 8, 1 / 4, 3 / 8, by decide +kernel, by decide +kernel, by decide +kernel, by decide +kernel, by decide +kernel, by decide +kernel, by decide +kernel⟩,
      ⟨3 / 4, 0, 1 / 4, 0, by decide +kernel, by decide +kernel, by decide +kernel, by decide +kernel, by decide +kernel, by decide +kernel, by decide +kernel⟩,
      by decide +kernel⟩, ?_⟩
  · rintro p ⟨⟨t, _, e⟩, u, v, hu, hu1, hv, hv1, e'⟩
    rw [e] at e'
    simp only [V3.ext_iff, addMul, patch, mix4] at e'
    obtain ⟨ex, ey, ez⟩ := e'
    have huv : u = v := by linarith
    subst huv
    have hu2 : (u - 1 / 2) * (u + 1 / 2) = 0 := by linarith
    have : u = 1 / 2 := by
      rcases mul_eq_zero.1 hu2 with k | k <;> linarith
    subst this
    have ht : t = 3 / 4 := by linarith
    rw [e, ht]
    decide +kernel
  · intro np
    rw [curved_parity np hc]
    decide +kernel

/-- The same for a vertex and a face that turns: a contact in the interior of the face is missed, whatever is drawn. -/
theorem vf_curved_violated : ∃ vs fs0 fs1 fs2 ve fe0 fe1 fe2 : V3, (∃ t a b c, 0 < t ∧ t < 1 ∧ 0 < a ∧ 0 < b ∧ 0 < c ∧
    VFTouch vs fs0 fs1 fs2 ve fe0 fe1 fe2 t a b c) ∧
    ∀ np draws, vertexFace np draws vs fs0 fs1 fs2 ve fe0 fe1 fe2 = false := by
  refine ⟨⟨0, 0, 0⟩, ⟨-2, 1, 1⟩, ⟨2, -1, 2⟩, ⟨-1, 2, 0⟩, ⟨0, 0, 0⟩, ⟨0, -2, 0⟩, ⟨1, 1, -2⟩, ⟨0, -1, -1⟩,
    ⟨1 / 2, 1 / 3, 1 / 3, 1 / 3, by decide +kernel, by decide +kernel, by decide +kernel, by decide +kernel, by decide +kernel, by unfold VFTouch; decide +kernel⟩, ?_⟩
  intro np draws
  have h := curved_prism np (p := prism ⟨0, 0, 0⟩ ⟨-2, 1, 1⟩ ⟨2, -1, 2⟩ ⟨-1, 2, 0⟩ ⟨0, 0, 0⟩ ⟨0, -2, 0⟩ ⟨1, 1, -2⟩ ⟨0, -1, -1⟩) (pt := ⟨0, 0, 0⟩)
    (by
      simp only [prismPatches, List.forall_mem_cons, List.not_mem_nil, false_imp_iff, implies_true, and_true]
      exact ⟨⟨by decide +kernel, by decide +kernel, by decide +kernel⟩, ⟨by decide +kernel, by decide +kernel, by decide +kernel⟩,
        ⟨by decide +kernel, by decide +kernel, by decide +kernel⟩⟩)
    (by decide +kernel) (by decide +kernel) (by decide +kernel) (by decide +kernel) ⟨1, 0, 0⟩ ⟨1, 0, 0⟩
  have h0 : insidePrism ones (prism ⟨0, 0, 0⟩ ⟨-2, 1, 1⟩ ⟨2, -1, 2⟩ ⟨-1, 2, 0⟩ ⟨0, 0, 0⟩ ⟨0, -2, 0⟩ ⟨1, 1, -2⟩ ⟨0, -1, -1⟩) ⟨0, 0, 0⟩ ⟨1, 0, 0⟩ ⟨1, 0, 0⟩ = 0 := by
    decide +kernel
  unfold vertexFace
  simp only
  rw [show boxCut (prism ⟨0, 0, 0⟩ ⟨-2, 1, 1⟩ ⟨2, -1, 2⟩ ⟨-1, 2, 0⟩ ⟨0, 0, 0⟩ ⟨0, -2, 0⟩ ⟨1, 1, -2⟩ ⟨0, -1, -1⟩) = true by decide +kernel]
  rw [if_neg (by decide), shoot_first _ _ (by rw [h, h0]), h, h0]
  rfl

/-- A face that goes over the vertex twice: the parity is even and no contact is reported, whatever is drawn. -/
theorem vf_twice_violated : ∃ vs fs0 fs1 fs2 ve fe0 fe1 fe2 : V3, (∃ a b c, VFTouch vs fs0 fs1 fs2 ve fe0 fe1 fe2 (1 / 2) a b c) ∧
    (∃ a b c, VFTouch vs fs0 fs1 fs2 ve fe0 fe1 fe2 (2 / 3) a b c) ∧
    ∀ np draws, vertexFace np draws vs fs0 fs1 fs2 ve fe0 fe1 fe2 = false := by
  refine ⟨⟨0, 0, 0⟩, ⟨0, -1, 2⟩, ⟨1, 0, -2⟩, ⟨0, 1, 0⟩, ⟨0, 0, 0⟩, ⟨-1, -1, -1⟩, ⟨1, 0, 1⟩, ⟨-1, 1, 0⟩,
    ⟨1 / 3, 1 / 3, 1 / 3, by unfold VFTouch; decide +kernel⟩, ⟨3 / 10, 2 / 5, 3 / 10, by unfold VFTouch; decide +kernel⟩, ?_⟩
  intro np draws
  have h := curved_prism np (p := prism ⟨0, 0, 0⟩ ⟨0, -1, 2⟩ ⟨1, 0, -2⟩ ⟨0, 1, 0⟩ ⟨0, 0, 0⟩ ⟨-1, -1, -1⟩ ⟨1, 0, 1⟩ ⟨-1, 1, 0⟩) (pt := ⟨0, 0, 0⟩)
    (by
      simp only [prismPatches, List.forall_mem_cons, List.not_mem_nil, false_imp_iff, implies_true, and_true]
      exact ⟨⟨by decide +kernel, by decide +kernel, by decide +kernel⟩, ⟨by decide +kernel, by decide +kernel, by decide +kernel⟩,
        ⟨by decide +kernel, by decide +kernel, by decide +kernel⟩⟩)
    (by decide +kernel) (by decide +kernel) (by decide +kernel) (by decide +kernel) ⟨1, 0, 0⟩ ⟨1, 0, 0⟩
  have h0 : insidePrism ones (prism ⟨0, 0, 0⟩ ⟨0, -1, 2⟩ ⟨1, 0, -2⟩ ⟨0, 1, 0⟩ ⟨0, 0, 0⟩ ⟨-1, -1, -1⟩ ⟨1, 0, 1⟩ ⟨-1, 1, 0⟩) ⟨0, 0, 0⟩ ⟨1, 0, 0⟩ ⟨1, 0, 0⟩ = 0 := by
    decide +kernel
  unfold vertexFace
  simp only
  rw [show boxCut (prism ⟨0, 0, 0⟩ ⟨0, -1, 2⟩ ⟨1, 0, -2⟩ ⟨0, 1, 0⟩ ⟨0, 0, 0⟩ ⟨-1, -1, -1⟩ ⟨1, 0, 1⟩ ⟨-1, 1, 0⟩) = true by decide +kernel]
  rw [if_neg (by decide), shoot_first _ _ (by rw [h, h0]), h, h0]
  rfl

/-- Two edges whose contact is missed, whatever is drawn. -/
theorem ee_missed_violated : ∃ a0 a1 b0 b1 a0b a1b b0b b1b : V3, (∃ t r s, 0 < t ∧ t < 1 ∧ 0 < r ∧ r < 1 ∧ 0 < s ∧ s < 1 ∧
    EETouch a0 a1 b0 b1 a0b a1b b0b b1b t r s) ∧ ∀ np, Outside np → ∀ draws, edgeEdge np draws a0 a1 b0 b1 a0b a1b b0b b1b = false := by
  refine ⟨⟨-1, 0, -1⟩, ⟨-3, 1, 0⟩, ⟨0, 0, 0⟩, ⟨-1, -1, -1⟩, ⟨0, -2, -1⟩, ⟨-2, -1, 0⟩, ⟨0, 0, 0⟩, ⟨-1, -1, -1⟩,
    ⟨1 / 2, 1 / 6, 5 / 6, by decide +kernel, by decide +kernel, by decide +kernel, by decide +kernel, by decide +kernel, by decide +kernel,
      by unfold EETouch; decide +kernel⟩, ?_⟩
  intro np hnp draws
  have h := easy_hex hnp (p := hex ⟨-1, 0, -1⟩ ⟨-3, 1, 0⟩ ⟨0, 0, 0⟩ ⟨-1, -1, -1⟩ ⟨0, -2, -1⟩ ⟨-2, -1, 0⟩ ⟨0, 0, 0⟩ ⟨-1, -1, -1⟩) (pt := ⟨0, 0, 0⟩)
    (by
      simp only [hexPatches, List.forall_mem_cons, List.not_mem_nil, false_imp_iff, implies_true, and_true]
      refine ⟨?_, ?_, ?_, ?_, ?_, ?_⟩ <;>
        exact ⟨by decide +kernel, by decide +kernel, by decide +kernel, by decide +kernel, by decide +kernel, by decide +kernel, by decide +kernel⟩) ⟨1, 0, 0⟩ ⟨1, 0, 0⟩
  have h0 : insideHex ones (hex ⟨-1, 0, -1⟩ ⟨-3, 1, 0⟩ ⟨0, 0, 0⟩ ⟨-1, -1, -1⟩ ⟨0, -2, -1⟩ ⟨-2, -1, 0⟩ ⟨0, 0, 0⟩ ⟨-1, -1, -1⟩) ⟨0, 0, 0⟩ ⟨1, 0, 0⟩ ⟨1, 0, 0⟩ = 0 := by
    decide +kernel
  unfold edgeEdge
  simp only
  rw [show boxCut (hex ⟨-1, 0, -1⟩ ⟨-3, 1, 0⟩ ⟨0, 0, 0⟩ ⟨-1, -1, -1⟩ ⟨0, -2, -1⟩ ⟨-2, -1, 0⟩ ⟨0, 0, 0⟩ ⟨-1, -1, -1⟩) = true by decide +kernel]
  rw [if_neg (by decide), shoot_first _ _ (by rw [h, h0]), h, h0]
  rfl

/-- Two edges that are reported, whatever is drawn, where there is no contact. -/
theorem ee_false_violated : ∃ a0 a1 b0 b1 a0b a1b b0b b1b : V3, (¬∃ t r s, EETouch a0 a1 b0 b1 a0b a1b b0b b1b t r s) ∧
    ∀ np, Outside np → ∀ draws, edgeEdge np draws a0 a1 b0 b1 a0b a1b b0b b1b = true := by
  refine ⟨⟨1, -1, 1⟩, ⟨2, -1, -1⟩, ⟨0, 0, 0⟩, ⟨0, -2, 1⟩, ⟨0, -3, 1⟩, ⟨1, -3, -1⟩, ⟨0, 0, 0⟩, ⟨0, -2, 1⟩, ?_, ?_⟩
  · rintro ⟨t, r, s, ht, ht1, hr, hr1, hs, hs1, e⟩
    simp only [V3.ext_iff, at', addMul, sub] at e
    obtain ⟨ex, ey, ez⟩ := e
    ring_nf at ex ey ez
    linarith
  intro np hnp draws
  have h := easy_hex hnp (p := hex ⟨1, -1, 1⟩ ⟨2, -1, -1⟩ ⟨0, 0, 0⟩ ⟨0, -2, 1⟩ ⟨0, -3, 1⟩ ⟨1, -3, -1⟩ ⟨0, 0, 0⟩ ⟨0, -2, 1⟩) (pt := ⟨0, 0, 0⟩)
    (by
      simp only [hexPatches, List.forall_mem_cons, List.not_mem_nil, false_imp_iff, implies_true, and_true]
      refine ⟨?_, ?_, ?_, ?_, ?_, ?_⟩ <;>
        exact ⟨by decide +kernel, by decide +kernel, by decide +kernel, by decide +kernel, by decide +kernel, by decide +kernel, by decide +kernel⟩) ⟨1, 0, 0⟩ ⟨1, 0, 0⟩
  have h0 : insideHex ones (hex ⟨1, -1, 1⟩ ⟨2, -1, -1⟩ ⟨0, 0, 0⟩ ⟨0, -2, 1⟩ ⟨0, -3, 1⟩ ⟨1, -3, -1⟩ ⟨0, 0, 0⟩ ⟨0, -2, 1⟩) ⟨0, 0, 0⟩ ⟨1, 0, 0⟩ ⟨1, 0, 0⟩ = 1 := by
    decide +kernel
  unfold edgeEdge
  simp only
  rw [show boxCut (hex ⟨1, -1, 1⟩ ⟨2, -1, -1⟩ ⟨0, 0, 0⟩ ⟨0, -2, 1⟩ ⟨0, -3, 1⟩ ⟨1, -3, -1⟩ ⟨0, 0, 0⟩ ⟨0, -2, 1⟩) = true by decide +kernel]
  rw [if_neg (by decide), shoot_first _ _ (by rw [h, h0]; decide), h, h0]
  rfl

/-- The same face and vertex with a ray that meets no edge: the contact is found. -/
example : insidePrism ones (prism ⟨0, 0, 0⟩ ⟨1, 1, 0⟩ ⟨-1, 0, -1⟩ ⟨0, -1, 0⟩ ⟨-1, 0, -2⟩ ⟨1, 1, 0⟩ ⟨-1, 0, -1⟩ ⟨0, -1, 0⟩) ⟨0, 0, 0⟩ ⟨1, 3, 5⟩ ⟨1, 3, 5⟩ = 1 := by
  decide +kernel

/-- A ray from inside of a tetrahedron to the other side of the patch. -/
example : let b : Patch := ⟨⟨0, 0, 0⟩, ⟨1, 0, 0⟩, ⟨0, 1, 0⟩, ⟨0, 0, 1⟩⟩
    insideTet b.v0 b.v1 b.v2 b.v3 ⟨1 / 10, 3 / 10, 1 / 10⟩ = true ∧ side b ⟨1 / 10, 3 / 10, 1 / 10⟩ * side b ⟨3 / 10, 0, 3 / 10⟩ < 0 ∧
      patchParity ones b ⟨1 / 10, 3 / 10, 1 / 10⟩ ⟨3 / 10, 0, 3 / 10⟩ ⟨1 / 5, -3 / 10, 1 / 5⟩ true = 1 := by decide +kernel

/-- A contact at the start that is found. -/
example : VFTouch ⟨0, 0, 0⟩ ⟨1, 1, 0⟩ ⟨-1, 1, 0⟩ ⟨0, -2, 0⟩ ⟨0, 0, 1⟩ ⟨1, 1, 0⟩ ⟨-1, 1, 0⟩ ⟨0, -2, 0⟩ 0 (1 / 3) (1 / 3) (1 / 3) ∧
    degenerate (sub ⟨0, 0, 0⟩ ⟨1, 1, 0⟩) (sub ⟨0, 0, 0⟩ ⟨0, -2, 0⟩) (sub ⟨0, 0, 0⟩ ⟨-1, 1, 0⟩) = false ∧
    vertexFace ones [⟨1, 2, 3⟩] ⟨0, 0, 0⟩ ⟨1, 1, 0⟩ ⟨-1, 1, 0⟩ ⟨0, -2, 0⟩ ⟨0, 0, 1⟩ ⟨1, 1, 0⟩ ⟨-1, 1, 0⟩ ⟨0, -2, 0⟩ = true := by
  unfold VFTouch; decide +kernel

/-- Points outside of all planes exist: the end of the normal. -/
example : Outside fun a b c => addMul a 1 (cross (sub a b) (sub a c)) := by
  intro a b c h e
  have hc : dot (cross (sub a b) (sub a c)) (cross (sub a b) (sub a c)) = 0 := by
    simp only [det, addMul, cross, sub] at e
    simp only [dot, cross, sub]
    linarith
  have h0 : cross (sub a b) (sub a c) = ⟨0, 0, 0⟩ := by
    generalize cross (sub a b) (sub a c) = v at hc
    simp only [dot] at hc
    exact V3.ext (by nlinarith [sq_nonneg v.x, sq_nonneg v.y, sq_nonneg v.z]) (by nlinarith [sq_nonneg v.x, sq_nonneg v.y, sq_nonneg v.z])
      (by nlinarith [sq_nonneg v.x, sq_nonneg v.y, sq_nonneg v.z])
  rw [(degenerate_cross a b c).2 h0] at h
  cases h

end Verif.ExactCcd
