import Verif.Spec.ExactCcd
import Verif.Props.ExactGeo

/-! Helper lemmas for the continuous collision tests. -/
namespace Verif.ExactCcd
open Verif.ExactGeo

theorem sgn_nonpos (r : ℚ) : sgn r ≤ 0 ↔ r ≤ 0 := by
  rcases three r with ⟨h, e, _⟩ | ⟨h, e, _⟩ | ⟨h, e, _⟩
  · rw [e]; exact ⟨fun _ => h.le, fun _ => by decide⟩
  · rw [e]; exact ⟨fun _ => h.le, fun _ => by decide⟩
  · rw [e]; exact ⟨fun k => absurd k (by decide), fun k => absurd h (not_lt.2 k)⟩

theorem mean2_pos {t x y : ℚ} (h0 : 0 ≤ t) (h1 : t ≤ 1) (hx : 0 < x) (hy : 0 < y) : 0 < x + t * (y - x) := by
  rcases h0.eq_or_lt with e | h
  · rw [← e]; linarith
  · have := mul_pos h hy
    have := mul_nonneg (sub_nonneg.2 h1) hx.le
    linarith

theorem mean3_pos {a b c x y z : ℚ} (ha : 0 ≤ a) (hb : 0 ≤ b) (hc : 0 ≤ c) (hs : a + b + c = 1) (hx : 0 < x) (hy : 0 < y) (hz : 0 < z) :
    0 < a * x + b * y + c * z := by
  have h1 := mul_nonneg ha hx.le
  have h2 := mul_nonneg hb hy.le
  have h3 := mul_nonneg hc hz.le
  rcases ha.eq_or_lt with e | h
  · rcases hb.eq_or_lt with e' | h'
    · have : c = 1 := by linarith
      rw [this]; linarith
    · have := mul_pos h' hy; linarith
  · have := mul_pos h hx; linarith

/-- The lower and the upper corners of the box. -/
theorem fold_min (ps : List V3) (p : V3) : let lo : V3 := ps.foldl (fun (m q : V3) => ⟨min m.x q.x, min m.y q.y, min m.z q.z⟩) p
    ∀ q ∈ p :: ps, lo.x ≤ q.x ∧ lo.y ≤ q.y ∧ lo.z ≤ q.z := by
  induction ps generalizing p with
  | nil => intro lo q hq; rw [List.mem_singleton] at hq; subst hq; exact ⟨le_rfl, le_rfl, le_rfl⟩
  | cons r rs ih =>
    intro lo q hq
    have h := ih ⟨min p.x r.x, min p.y r.y, min p.z r.z⟩
    rcases List.mem_cons.1 hq with rfl | hq
    · obtain ⟨a, b, c⟩ := h _ (List.mem_cons_self ..)
      exact ⟨a.trans (min_le_left _ _), b.trans (min_le_left _ _), c.trans (min_le_left _ _)⟩
    · rcases List.mem_cons.1 hq with rfl | hq
      · obtain ⟨a, b, c⟩ := h _ (List.mem_cons_self ..)
        exact ⟨a.trans (min_le_right _ _), b.trans (min_le_right _ _), c.trans (min_le_right _ _)⟩
      · exact h q (List.mem_cons_of_mem _ hq)

theorem fold_max (ps : List V3) (p : V3) : let hi : V3 := ps.foldl (fun (m q : V3) => ⟨max m.x q.x, max m.y q.y, max m.z q.z⟩) p
    ∀ q ∈ p :: ps, q.x ≤ hi.x ∧ q.y ≤ hi.y ∧ q.z ≤ hi.z := by
  induction ps generalizing p with
  | nil => intro hi q hq; rw [List.mem_singleton] at hq; subst hq; exact ⟨le_rfl, le_rfl, le_rfl⟩
  | cons r rs ih =>
    intro hi q hq
    have h := ih ⟨max p.x r.x, max p.y r.y, max p.z r.z⟩
    rcases List.mem_cons.1 hq with rfl | hq
    · obtain ⟨a, b, c⟩ := h _ (List.mem_cons_self ..)
      exact ⟨(le_max_left _ _).trans a, (le_max_left _ _).trans b, (le_max_left _ _).trans c⟩
    · rcases List.mem_cons.1 hq with rfl | hq
      · obtain ⟨a, b, c⟩ := h _ (List.mem_cons_self ..)
        exact ⟨(le_max_right _ _).trans a, (le_max_right _ _).trans b, (le_max_right _ _).trans c⟩
      · exact h q (List.mem_cons_of_mem _ hq)

/-- A box away from the origin has all points on one side of it. -/
theorem box_away {p : V3} {ps : List V3} (h : boxCut (p :: ps) = false) :
    (∀ q ∈ p :: ps, q.x < 0) ∨ (∀ q ∈ p :: ps, 0 < q.x) ∨ (∀ q ∈ p :: ps, q.y < 0) ∨ (∀ q ∈ p :: ps, 0 < q.y) ∨
      (∀ q ∈ p :: ps, q.z < 0) ∨ (∀ q ∈ p :: ps, 0 < q.z) := by
  have hlo := fold_min ps p
  have hhi := fold_max ps p
  simp only [boxCut] at h
  simp only [Bool.and_eq_false_iff, Bool.not_eq_false', Bool.or_eq_true, decide_eq_true_eq, gt_iff_lt] at h
  rcases h with ((h | h) | (h | h)) | (h | h)
  · exact Or.inl fun q hq => (hhi q hq).1.trans_lt h
  · exact Or.inr (Or.inl fun q hq => h.trans_le (hlo q hq).1)
  · exact Or.inr (Or.inr (Or.inl fun q hq => (hhi q hq).2.1.trans_lt h))
  · exact Or.inr (Or.inr (Or.inr (Or.inl fun q hq => h.trans_le (hlo q hq).2.1)))
  · exact Or.inr (Or.inr (Or.inr (Or.inr (Or.inl fun q hq => (hhi q hq).2.2.trans_lt h))))
  · exact Or.inr (Or.inr (Or.inr (Or.inr (Or.inr fun q hq => h.trans_le (hlo q hq).2.2))))

/-- One coordinate of a vertex and a face in contact. -/
theorem vf_coord {t a b c v w f0 f1 f2 g0 g1 g2 : ℚ} (ht : 0 ≤ t) (ht1 : t ≤ 1) (ha : 0 ≤ a) (hb : 0 ≤ b) (hc : 0 ≤ c) (hs : a + b + c = 1)
    (h : v + t * (w - v) = a * (f0 + t * (g0 - f0)) + b * (f1 + t * (g1 - f1)) + c * (f2 + t * (g2 - f2)))
    (p0 : 0 < v - f0) (p1 : 0 < v - f1) (p2 : 0 < v - f2) (q0 : 0 < w - g0) (q1 : 0 < w - g1) (q2 : 0 < w - g2) : False := by
  have := mean3_pos ha hb hc hs (mean2_pos ht ht1 p0 q0) (mean2_pos ht ht1 p1 q1) (mean2_pos ht ht1 p2 q2)
  have e : a * (v - f0 + t * (w - g0 - (v - f0))) + b * (v - f1 + t * (w - g1 - (v - f1))) + c * (v - f2 + t * (w - g2 - (v - f2))) =
      (a + b + c) * (v + t * (w - v)) - (a * (f0 + t * (g0 - f0)) + b * (f1 + t * (g1 - f1)) + c * (f2 + t * (g2 - f2))) := by ring
  rw [e, hs, one_mul, h, sub_self] at this
  exact lt_irrefl _ this

/-- One coordinate of two edges in contact. -/
theorem ee_coord {t r s a0 a1 b0 b1 c0 c1 d0 d1 : ℚ} (ht : 0 ≤ t) (ht1 : t ≤ 1) (hr : 0 ≤ r) (hr1 : r ≤ 1) (hs : 0 ≤ s) (hs1 : s ≤ 1)
    (h : a0 + t * (c0 - a0) + r * (a1 + t * (c1 - a1) - (a0 + t * (c0 - a0))) = b0 + t * (d0 - b0) + s * (b1 + t * (d1 - b1) - (b0 + t * (d0 - b0))))
    (p0 : 0 < a0 - b0) (p1 : 0 < a1 - b0) (p2 : 0 < a1 - b1) (p3 : 0 < a0 - b1) (q0 : 0 < c0 - d0) (q1 : 0 < c1 - d0) (q2 : 0 < c1 - d1) (q3 : 0 < c0 - d1) :
    False := by
  have := mean2_pos hs hs1 (mean2_pos hr hr1 (mean2_pos ht ht1 p0 q0) (mean2_pos ht ht1 p1 q1)) (mean2_pos hr hr1 (mean2_pos ht ht1 p3 q3) (mean2_pos ht ht1 p2 q2))
  have e : a0 - b0 + t * (c0 - d0 - (a0 - b0)) + r * (a1 - b0 + t * (c1 - d0 - (a1 - b0)) - (a0 - b0 + t * (c0 - d0 - (a0 - b0)))) +
      s * (a0 - b1 + t * (c0 - d1 - (a0 - b1)) + r * (a1 - b1 + t * (c1 - d1 - (a1 - b1)) - (a0 - b1 + t * (c0 - d1 - (a0 - b1)))) -
        (a0 - b0 + t * (c0 - d0 - (a0 - b0)) + r * (a1 - b0 + t * (c1 - d0 - (a1 - b0)) - (a0 - b0 + t * (c0 - d0 - (a0 - b0)))))) =
      a0 + t * (c0 - a0) + r * (a1 + t * (c1 - a1) - (a0 + t * (c0 - a0))) - (b0 + t * (d0 - b0) + s * (b1 + t * (d1 - b1) - (b0 + t * (d0 - b0)))) := by ring
  rw [e, h, sub_self] at this
  exact lt_irrefl _ this

/-- The orientations of a flat patch in barycentric coordinates of its fourth corner. -/
theorem det_flat (n v0 v1 v2 : V3) {a b c : ℚ} (hs : a + b + c = 1) :
    det n v0 v2 (mix a b c v0 v1 v2) = -b * det n v0 v1 v2 ∧ det n v0 v1 (mix a b c v0 v1 v2) = c * det n v0 v1 v2 ∧
      det n (mix a b c v0 v1 v2) v1 v2 = a * det n v0 v1 v2 := by
  obtain rfl : a = 1 - b - c := by linarith
  simp only [det, mix]
  refine ⟨?_, ?_, ?_⟩ <;> ring

theorem sgn_sq {d : ℚ} (h : d ≠ 0) : sgn d * sgn d = 1 := by
  rcases sgn_cases h with e | e <;> rw [e] <;> rfl

/-- The kind of a flat patch in barycentric coordinates of its fourth corner. -/
theorem degeneration_mix (np : V3 → V3 → V3 → V3) {v0 v1 v2 : V3} (hd : degenerate v0 v1 v2 = false) (hn : det (np v0 v1 v2) v0 v1 v2 ≠ 0) {a b c : ℚ}
    (hs : a + b + c = 1) : degeneration np ⟨v0, v1, v2, mix a b c v0 v1 v2⟩ = if 0 ≤ b then 2 else if c * a ≤ 0 then 3 else 1 := by
  obtain ⟨h1, h2, h3⟩ := det_flat (np v0 v1 v2) v0 v1 v2 hs
  have e1 : orient3d (np v0 v1 v2) v0 v1 v2 * orient3d (np v0 v1 v2) v0 v2 (mix a b c v0 v1 v2) = sgn (-b) := by
    simp only [orient3d, h1, sgn_mul]
    rw [mul_comm (sgn (-b)), ← mul_assoc, sgn_sq hn, one_mul]
  have e2 : orient3d (np v0 v1 v2) v0 v1 (mix a b c v0 v1 v2) * orient3d (np v0 v1 v2) (mix a b c v0 v1 v2) v1 v2 = sgn (c * a) := by
    simp only [orient3d, h2, h3, sgn_mul]
    have := sgn_sq hn
    calc sgn c * sgn (det (np v0 v1 v2) v0 v1 v2) * (sgn a * sgn (det (np v0 v1 v2) v0 v1 v2)) =
        sgn c * sgn a * (sgn (det (np v0 v1 v2) v0 v1 v2) * sgn (det (np v0 v1 v2) v0 v1 v2)) := by ring
      _ = _ := by rw [this, mul_one]
  unfold degeneration
  simp only [hd, Bool.false_eq_true, false_and, if_false]
  rw [e1, e2]
  by_cases hb : 0 ≤ b
  · rw [if_pos ((sgn_nonpos _).2 (by linarith)), if_pos hb]
  · rw [if_neg (fun k => hb (by have := (sgn_nonpos _).1 k; linarith)), if_neg hb]
    by_cases hc : c * a ≤ 0
    · rw [if_pos ((sgn_nonpos _).2 hc), if_pos hc]
    · rw [if_neg (fun k => hc ((sgn_nonpos _).1 k)), if_neg hc]

/-- Away from the plane of a triangle no other point is used. -/
theorem rayTriangle_off (np : V3 → V3 → V3 → V3) {pt t1 t2 t3 : V3} (pt1 d : V3) (ht : degenerate t1 t2 t3 = false) (hp : det pt t1 t2 t3 ≠ 0) (ho : Bool) :
    rayTriangle np pt pt1 d t1 t2 t3 ho = rayTriangleOff pt pt1 t1 t2 t3 ho := by
  unfold rayTriangle
  simp only [ht, Bool.false_eq_true, if_false]
  exact if_neg fun k => hp (sgn_zero.1 k)

theorem off_values (pt pt1 t1 t2 t3 : V3) :
    (rayTriangleOff pt pt1 t1 t2 t3 true = rayTriangleOff pt pt1 t1 t2 t3 false ∧
      (rayTriangleOff pt pt1 t1 t2 t3 true = 0 ∨ rayTriangleOff pt pt1 t1 t2 t3 true = 1 ∨ rayTriangleOff pt pt1 t1 t2 t3 true = -1)) ∨
    (rayTriangleOff pt pt1 t1 t2 t3 true = 3 ∧ rayTriangleOff pt pt1 t1 t2 t3 false = -1) := by
  unfold rayTriangleOff
  simp only
  split
  · exact Or.inl ⟨rfl, Or.inl rfl⟩
  · split
    · exact Or.inl ⟨rfl, Or.inr (Or.inl rfl)⟩
    · split
      · exact Or.inl ⟨rfl, Or.inr (Or.inr rfl)⟩
      · split
        · exact Or.inl ⟨rfl, Or.inr (Or.inr rfl)⟩
        · split
          · exact Or.inr ⟨rfl, rfl⟩
          · exact Or.inl ⟨rfl, Or.inl rfl⟩

/-- Loops over patches with the same values. -/
theorem patches_congr {np np' : V3 → V3 → V3 → V3} {pt pt1 d : V3} {bs : List Patch} (h : ∀ b ∈ bs, patchParity np b pt pt1 d b.inTet = patchParity np' b pt pt1 d b.inTet)
    (s : Nat) : patches np pt pt1 d bs s = patches np' pt pt1 d bs s := by
  induction bs generalizing s with
  | nil => rfl
  | cons b bs ih =>
    simp only [patches]
    rw [h b (List.mem_cons_self ..), ih fun c hc => h c (List.mem_cons_of_mem _ hc)]

theorem patches_inl {np : V3 → V3 → V3 → V3} {pt pt1 d : V3} {bs : List Patch} {s : Nat} {r : Int} (h : patches np pt pt1 d bs s = .inl r) : r = 1 ∨ r = -1 := by
  induction bs generalizing s with
  | nil => cases h
  | cons b bs ih =>
    simp only [patches] at h
    split at h
    · exact Or.inl (Sum.inl.inj h).symm
    · split at h
      · exact Or.inr (Sum.inl.inj h).symm
      · exact ih h

theorem patches_stop {np : V3 → V3 → V3 → V3} {pt pt1 d : V3} {bs : List Patch} {b : Patch} (hb : b ∈ bs)
    (h : patchParity np b pt pt1 d b.inTet = 2 ∨ patchParity np b pt pt1 d b.inTet = -1) (s : Nat) : ∃ r, patches np pt pt1 d bs s = .inl r := by
  induction bs generalizing s with
  | nil => cases hb
  | cons c bs ih =>
    simp only [patches]
    split
    · exact ⟨_, rfl⟩
    · split
      · exact ⟨_, rfl⟩
      · rename_i h1 h2
        rcases List.mem_cons.1 hb with rfl | hb
        · rcases h with h | h
          · exact absurd h h1
          · exact absurd h h2
        · exact ih hb _

theorem prism_patch {np : V3 → V3 → V3 → V3} {p : List V3} {d : V3} {b : Patch} (hb : b ∈ prismPatches p)
    (h : patchParity np b ⟨0, 0, 0⟩ d d b.inTet = 2 ∨ patchParity np b ⟨0, 0, 0⟩ d d b.inTet = -1) :
    insidePrism np p ⟨0, 0, 0⟩ d d = 1 ∨ insidePrism np p ⟨0, 0, 0⟩ d d = -1 := by
  unfold insidePrism
  split
  · exact Or.inr rfl
  · obtain ⟨r, hr⟩ := patches_stop hb h 0
    rw [hr]
    exact patches_inl hr

theorem hex_patch {np : V3 → V3 → V3 → V3} {p : List V3} {d : V3} {b : Patch} (hb : b ∈ hexPatches p)
    (h : patchParity np b ⟨0, 0, 0⟩ d d b.inTet = 2 ∨ patchParity np b ⟨0, 0, 0⟩ d d b.inTet = -1) :
    insideHex np p ⟨0, 0, 0⟩ d d = 1 ∨ insideHex np p ⟨0, 0, 0⟩ d d = -1 := by
  unfold insideHex
  split
  · exact Or.inr rfl
  · obtain ⟨r, hr⟩ := patches_stop hb h 0
    rw [hr]
    exact patches_inl hr

theorem prism_triangle {np : V3 → V3 → V3 → V3} {p : List V3} {d : V3}
    (h : triangleParity np ⟨0, 0, 0⟩ d d (vtx p 0) (vtx p 1) (vtx p 2) = 2 ∨ triangleParity np ⟨0, 0, 0⟩ d d (vtx p 3) (vtx p 4) (vtx p 5) = 2) :
    insidePrism np p ⟨0, 0, 0⟩ d d = 1 ∨ insidePrism np p ⟨0, 0, 0⟩ d d = -1 := by
  unfold insidePrism
  split
  · exact Or.inr rfl
  · cases hr : patches np ⟨0, 0, 0⟩ d d (prismPatches p) 0 with
    | inl r => exact patches_inl hr
    | inr s =>
      simp only
      split
      · exact Or.inl rfl
      · split
        · exact Or.inr rfl
        · split
          · exact Or.inl rfl
          · split
            · exact Or.inr rfl
            · rename_i h1 _ h2 _
              rcases h with h | h
              · exact absurd h h1
              · exact absurd h h2

/-- The origin on a triangle that is not degenerate. -/
theorem triangle_on {np : V3 → V3 → V3 → V3} (hnp : Outside np) {t1 t2 t3 : V3} (ht : degenerate t1 t2 t3 = false) {a b c : ℚ} (ha : 0 ≤ a) (hb : 0 ≤ b) (hc : 0 ≤ c)
    (hs : a + b + c = 1) {pt : V3} (e : pt = mix a b c t1 t2 t3) (d : V3) : triangleParity np pt d d t1 t2 t3 = 2 := by
  have hn := hnp _ _ _ ht
  have hp : det pt t1 t2 t3 = 0 := by rw [e]; exact (bary_unique (np t1 t2 t3) t1 t2 t3 hs).2.2.2
  have hv : pointTriangle np pt t1 t2 t3 false = 1 ∨ pointTriangle np pt t1 t2 t3 false = 2 := by
    rw [e, pointTriangle_mix np hn hs]
    simp only [Bool.false_eq_true, false_and, if_false]
    split
    · exact Or.inl rfl
    · exact Or.inr (if_pos ⟨ha, hb, hc⟩)
  unfold triangleParity rayTriangle
  simp only [ht, Bool.not_false, if_true, Bool.false_eq_true, if_false]
  rw [if_pos (show orient3d pt t1 t2 t3 = 0 from sgn_zero.2 hp), if_pos hv]

/-- The origin on the interior of a patch that is not flat. -/
theorem patch_on (np : V3 → V3 → V3 → V3) {b : Patch} (hf : b.flat = false) {u v : ℚ} (hu : 0 < u) (hu1 : u < 1) (hv : 0 < v) (hv1 : v < 1)
    (e : (⟨0, 0, 0⟩ : V3) = patch u v b.v0 b.v1 b.v2 b.v3) (d : V3) : patchParity np b ⟨0, 0, 0⟩ d d b.inTet = 2 := by
  have hV : det b.v0 b.v1 b.v2 b.v3 ≠ 0 := fun k => by
    have : b.flat = true := by unfold Patch.flat orient3d; rw [sgn_zero.2 k]; rfl
    rw [this] at hf; cases hf
  have hin : b.inTet = true := by
    unfold Patch.inTet
    rw [hf, if_neg (by simp)]
    exact (tet_exact _ _ _ _ _ hV).2 ⟨_, _, _, _, mul_pos (by linarith) (by linarith), mul_pos hu (by linarith), mul_pos hu hv, mul_pos (by linarith) hv, by ring, e⟩
  unfold patchParity
  rw [hf, hin]
  simp only [Bool.not_false, if_true, Bool.not_true, Bool.false_eq_true, if_false]
  unfold correctPair
  exact if_pos (((phi_exact _ _ _ _ _ hV).1).2 ⟨u, v, e⟩)

/-- A loop with no trial that is decided against. -/
theorem shoot_or {inside : V3 → Int} {ds : List V3} (h : ∀ d ∈ ds, inside d = 1 ∨ inside d = -1) : shoot inside ds = true ∨ ∀ d ∈ ds, inside d = -1 := by
  induction ds with
  | nil => exact Or.inr fun d hd => by cases hd
  | cons d ds ih =>
    unfold shoot
    rcases h d (List.mem_cons_self ..) with e | e
    · rw [e]; exact Or.inl rfl
    · rw [e]
      rcases ih fun x hx => h x (List.mem_cons_of_mem _ hx) with k | k
      · exact Or.inl (by simpa using k)
      · refine Or.inr fun x hx => ?_
        rcases List.mem_cons.1 hx with rfl | hx
        · exact e
        · exact k x hx

/-- The point of lines 327 and 671 before any draw. -/
def ones : V3 → V3 → V3 → V3 := fun _ _ _ => ⟨1, 1, 1⟩

/-- A convex flat patch away from the origin: conditions that a computation decides. -/
structure Easy (b : Patch) (pt : V3) : Prop where
  flat : b.flat = true
  d1 : degenerate b.v0 b.v1 b.v2 = false
  d2 : degenerate b.v0 b.v3 b.v2 = false
  p1 : det pt b.v0 b.v1 b.v2 ≠ 0
  p2 : det pt b.v0 b.v3 b.v2 ≠ 0
  n1 : det ⟨1, 1, 1⟩ b.v0 b.v1 b.v2 ≠ 0
  k : degeneration ones b = 1

/-- The parity of such a patch does not depend on the points outside of planes. -/
theorem easy_parity {np : V3 → V3 → V3 → V3} (hnp : Outside np) {b : Patch} {pt : V3} (h : Easy b pt) (pt1 d : V3) (i : Bool) :
    patchParity np b pt pt1 d i = patchParity ones b pt pt1 d i := by
  obtain ⟨v0, v1, v2, v3⟩ := b
  obtain ⟨hf, d1, d2, p1, p2, n1, k⟩ := h
  simp only at d1 d2 p1 p2 n1
  have hD : det v0 ⟨1, 1, 1⟩ v1 v2 ≠ 0 := by
    have : det v0 ⟨1, 1, 1⟩ v1 v2 = -det ⟨1, 1, 1⟩ v0 v1 v2 := by simp only [det]; ring
    rw [this]; exact neg_ne_zero.2 n1
  have h3 : det v3 v0 v1 v2 = 0 := by
    have e : det v3 v0 v1 v2 = -det v0 v1 v2 v3 := by simp only [det]; ring
    have e' : det v0 v1 v2 v3 = 0 := sgn_zero.1 (by simpa [Patch.flat, orient3d] using hf)
    rw [e, e', neg_zero]
  obtain ⟨a, b, c, hs, rfl⟩ := mix_exists hD h3
  have hk : degeneration np ⟨v0, v1, v2, mix a b c v0 v1 v2⟩ = 1 := by
    rw [degeneration_mix np d1 (hnp _ _ _ d1) hs, ← degeneration_mix ones d1 n1 hs]; exact k
  unfold patchParity
  simp only [hf, Bool.not_true, Bool.false_eq_true, if_false]
  rw [hk, k]
  unfold flatParity
  simp only [if_true, rayTriangle_off np pt1 d d1 p1, rayTriangle_off np pt1 d d2 p2, rayTriangle_off ones pt1 d d1 p1, rayTriangle_off ones pt1 d d2 p2]

theorem easy_prism {np : V3 → V3 → V3 → V3} (hnp : Outside np) {p : List V3} {pt : V3} (h : ∀ b ∈ prismPatches p, Easy b pt)
    (d1 : degenerate (vtx p 0) (vtx p 1) (vtx p 2) = false) (d2 : degenerate (vtx p 3) (vtx p 4) (vtx p 5) = false)
    (p1 : det pt (vtx p 0) (vtx p 1) (vtx p 2) ≠ 0) (p2 : det pt (vtx p 3) (vtx p 4) (vtx p 5) ≠ 0) (pt1 d : V3) :
    insidePrism np p pt pt1 d = insidePrism ones p pt pt1 d := by
  unfold insidePrism triangleParity
  simp only [patches_congr (fun b hb => easy_parity hnp (h b hb) pt1 d b.inTet), d1, d2, Bool.not_false, if_true, rayTriangle_off np pt1 d d1 p1,
    rayTriangle_off np pt1 d d2 p2, rayTriangle_off ones pt1 d d1 p1, rayTriangle_off ones pt1 d d2 p2]

theorem easy_hex {np : V3 → V3 → V3 → V3} (hnp : Outside np) {p : List V3} {pt : V3} (h : ∀ b ∈ hexPatches p, Easy b pt) (pt1 d : V3) :
    insideHex np p pt pt1 d = insideHex ones p pt pt1 d := by
  unfold insideHex
  rw [patches_congr (fun b hb => easy_parity hnp (h b hb) pt1 d b.inTet)]

theorem shoot_first (inside : V3 → Int) (draws : List V3) (h : 0 ≤ inside ⟨1, 0, 0⟩) : shoot inside (trials draws) = decide (inside ⟨1, 0, 0⟩ ≥ 1) := by
  show shoot inside (⟨1, 0, 0⟩ :: draws.take 7) = _
  unfold shoot
  exact if_pos h

/-- The orientations of a ray in coordinates of a tetrahedron: `x` is on the ray at the parameter `s`. -/
theorem ray_dets {pt pt1 t1 t2 t3 t4 : V3} {a b c d α β γ ω s : ℚ} (hs : a + b + c + d = 1) (hx : α + β + γ + ω = 1) (e : pt = mix4 a b c d t1 t2 t3 t4)
    (ex : addMul pt s (sub pt1 pt) = mix4 α β γ ω t1 t2 t3 t4) :
    det t3 pt t1 t2 = d * det t1 t2 t3 t4 ∧ s * det pt1 pt t2 t3 = (α * d - ω * a) * det t1 t2 t3 t4 ∧
      s * det pt1 pt t3 t1 = (β * d - ω * b) * det t1 t2 t3 t4 ∧ s * det pt1 pt t1 t2 = (γ * d - ω * c) * det t1 t2 t3 t4 ∧
      det pt t1 t2 t3 = -(d * det t1 t2 t3 t4) := by
  rw [← det_scale pt pt1 t2 t3 s, ← det_scale pt pt1 t3 t1 s, ← det_scale pt pt1 t1 t2 s, ex, e]
  obtain rfl : a = 1 - b - c - d := by linarith
  obtain rfl : α = 1 - β - γ - ω := by linarith
  simp only [det, mix4]
  refine ⟨?_, ?_, ?_, ?_, ?_⟩ <;> ring

theorem not_degenerate {t1 t2 t3 t4 : V3} (hV : det t1 t2 t3 t4 ≠ 0) : degenerate t1 t2 t3 = false := by
  rw [← Bool.not_eq_true, degenerate_cross]
  intro h
  refine hV ?_
  simp only [V3.ext_iff, cross, sub] at h
  obtain ⟨hx, hy, hz⟩ := h
  simp only [det]
  linear_combination -(t4.x - t1.x) * hx - (t4.y - t1.y) * hy - (t4.z - t1.z) * hz

/-- The hit of a facet of a tetrahedron by a ray, from the coordinates of a point of the ray. -/
theorem facet_coords (np : V3 → V3 → V3 → V3) {pt pt1 t1 t2 t3 t4 : V3} (dir : V3) {a b c d α β γ ω s : ℚ} (hV : det t1 t2 t3 t4 ≠ 0) (hs : a + b + c + d = 1)
    (hx : α + β + γ + ω = 1) (e : pt = mix4 a b c d t1 t2 t3 t4) (ex : addMul pt s (sub pt1 pt) = mix4 α β γ ω t1 t2 t3 t4) (s0 : 0 < s) (d0 : d ≠ 0)
    (hn : ¬(α * d - ω * a = 0 ∧ β * d - ω * b = 0 ∧ γ * d - ω * c = 0)) :
    rayTriangle np pt pt1 dir t1 t2 t3 true =
      if 0 < (α * d - ω * a) / (s * d) ∧ 0 < (β * d - ω * b) / (s * d) ∧ 0 < (γ * d - ω * c) / (s * d) then 1
      else if true = true ∧ (α * d - ω * a) / (s * d) = 0 ∧ 0 < (β * d - ω * b) / (s * d) ∧ 0 < (γ * d - ω * c) / (s * d) then 3
      else if 0 ≤ (α * d - ω * a) / (s * d) ∧ 0 ≤ (β * d - ω * b) / (s * d) ∧ 0 ≤ (γ * d - ω * c) / (s * d) then -1 else 0 := by
  obtain ⟨h0, h1, h2, h3, h4⟩ := ray_dets hs hx e ex
  have s1 := s0.ne'
  have hsd : s * d ≠ 0 := mul_ne_zero s1 d0
  rw [rayTriangle_off np pt1 dir (not_degenerate hV) (by rw [h4]; exact neg_ne_zero.2 (mul_ne_zero d0 hV))]
  have key : ∀ {D k : ℚ}, s * D = k * det t1 t2 t3 t4 → D = k / (s * d) * (d * det t1 t2 t3 t4) := fun {D k} h => by
    have : D = k * det t1 t2 t3 t4 / s := by rw [← h]; field_simp
    rw [this]; field_simp
  refine rayTriangleOff_coords (by rw [h0]; exact mul_ne_zero d0 hV) (by rw [h0]; exact key h1) (by rw [h0]; exact key h2) (by rw [h0]; exact key h3) ?_ true
  rintro ⟨k1, k2, k3⟩
  exact hn ⟨(div_eq_zero_iff.1 k1).resolve_right hsd, (div_eq_zero_iff.1 k2).resolve_right hsd, (div_eq_zero_iff.1 k3).resolve_right hsd⟩

/-- What a facet answers to a ray that leaves the tetrahedron at a point with these coordinates. -/
def exitCode (α β γ ω : ℚ) : Int := if 0 < ω then 0 else if 0 < α ∧ 0 < β ∧ 0 < γ then 1 else if α = 0 ∧ 0 < β ∧ 0 < γ then 3 else -1

/-- A ray from inside of a tetrahedron. -/
theorem facet_exit (np : V3 → V3 → V3 → V3) {pt pt1 t1 t2 t3 t4 : V3} (dir : V3) {a b c d α β γ ω s : ℚ} (hV : det t1 t2 t3 t4 ≠ 0) (hs : a + b + c + d = 1)
    (ha : 0 < a) (hb : 0 < b) (hc : 0 < c) (hd : 0 < d) (hx : α + β + γ + ω = 1) (hα : 0 ≤ α) (hβ : 0 ≤ β) (hγ : 0 ≤ γ) (hω : 0 ≤ ω)
    (hz : α = 0 ∨ β = 0 ∨ γ = 0 ∨ ω = 0)
    (e : pt = mix4 a b c d t1 t2 t3 t4) (ex : addMul pt s (sub pt1 pt) = mix4 α β γ ω t1 t2 t3 t4) (s0 : 0 < s) :
    rayTriangle np pt pt1 dir t1 t2 t3 true = exitCode α β γ ω := by
  have hsd : 0 < s * d := mul_pos s0 hd
  unfold exitCode
  by_cases hw : 0 < ω
  · rw [if_pos hw]
    have hneg : ∀ {k l : ℚ}, k = 0 → 0 < l → (k * d - ω * l) / (s * d) < 0 := fun {k l} hk hl => by
      rw [hk, zero_mul, zero_sub, neg_div]
      exact neg_neg_of_pos (div_pos (mul_pos hw hl) hsd)
    rw [facet_coords np dir hV hs hx e ex s0 hd.ne' (by
      rintro ⟨k1, k2, k3⟩
      rcases hz with h | h | h | h
      · have := hneg h ha; rw [k1, zero_div] at this; exact lt_irrefl _ this
      · have := hneg h hb; rw [k2, zero_div] at this; exact lt_irrefl _ this
      · have := hneg h hc; rw [k3, zero_div] at this; exact lt_irrefl _ this
      · exact hw.ne' h)]
    rcases hz with h | h | h | h
    · have := hneg h ha
      rw [if_neg (fun k => absurd k.1 (not_lt.2 this.le)), if_neg (fun k => this.ne k.2.1), if_neg (fun k => absurd k.1 (not_le.2 this))]
    · have := hneg h hb
      rw [if_neg (fun k => absurd k.2.1 (not_lt.2 this.le)), if_neg (fun k => absurd k.2.2.1 (not_lt.2 this.le)), if_neg (fun k => absurd k.2.1 (not_le.2 this))]
    · have := hneg h hc
      rw [if_neg (fun k => absurd k.2.2 (not_lt.2 this.le)), if_neg (fun k => absurd k.2.2.2 (not_lt.2 this.le)), if_neg (fun k => absurd k.2.2 (not_le.2 this))]
    · exact absurd h hw.ne'
  · obtain rfl : ω = 0 := le_antisymm (not_lt.1 hw) hω
    have hq : ∀ k l : ℚ, (k * d - 0 * l) / (s * d) = k / s := fun k l => by field_simp; ring
    have h1 : ∀ {k : ℚ}, 0 < k / s ↔ 0 < k := fun {k} => ⟨fun h => by have := mul_pos h s0; rwa [div_mul_cancel₀ _ s0.ne'] at this, fun h => div_pos h s0⟩
    have h2 : ∀ {k : ℚ}, k / s = 0 ↔ k = 0 := fun {k} => by rw [div_eq_zero_iff]; exact ⟨fun h => h.resolve_right s0.ne', Or.inl⟩
    rw [facet_coords np dir hV hs hx e ex s0 hd.ne' (by
      rintro ⟨k1, k2, k3⟩
      have q : ∀ {k l : ℚ}, k * d - 0 * l = 0 → k = 0 := fun {k l} h => by
        rw [zero_mul, sub_zero] at h; exact (mul_eq_zero.1 h).resolve_right hd.ne'
      have := q k1; have := q k2; have := q k3
      linarith)]
    simp only [hq, h1, h2, true_and, lt_irrefl, if_false]
    split
    · rfl
    · split
      · rfl
      · exact if_pos ⟨div_nonneg hα s0.le, div_nonneg hβ s0.le, div_nonneg hγ s0.le⟩

/-- The facets of a patch and their opposite corners: a statement on triangles for both orientations. -/
theorem facet_cases (b : Patch) (P : V3 × V3 × V3 → Prop) :
    ((P (b.v1, b.v2, b.v0) ∧ P (b.v1, b.v0, b.v2)) → P (b.facet 0)) ∧ ((P (b.v3, b.v0, b.v2) ∧ P (b.v3, b.v2, b.v0)) → P (b.facet 1)) ∧
      ((P (b.v0, b.v3, b.v1) ∧ P (b.v0, b.v1, b.v3)) → P (b.facet 2)) ∧ ((P (b.v2, b.v1, b.v3) ∧ P (b.v2, b.v3, b.v1)) → P (b.facet 3)) := by
  unfold Patch.facet facets
  split
  · exact ⟨fun h => h.1, fun h => h.1, fun h => h.1, fun h => h.1⟩
  · exact ⟨fun h => h.2, fun h => h.2, fun h => h.2, fun h => h.2⟩

theorem exitCode_swap (α β γ ω : ℚ) : exitCode α γ β ω = exitCode α β γ ω := by
  unfold exitCode
  simp only [and_comm (a := 0 < γ)]

/-- The answers of the four facets to a ray from inside. -/
theorem facets_exit (np : V3 → V3 → V3 → V3) (b : Patch) {pt pt1 : V3} (dir : V3) {a b' c d p q r w s : ℚ} (hV : det b.v0 b.v1 b.v2 b.v3 ≠ 0)
    (hs : a + b' + c + d = 1) (ha : 0 < a) (hb : 0 < b') (hc : 0 < c) (hd : 0 < d) (hx : p + q + r + w = 1) (hp : 0 ≤ p) (hq : 0 ≤ q) (hr : 0 ≤ r) (hw : 0 ≤ w)
    (hz : p = 0 ∨ q = 0 ∨ r = 0 ∨ w = 0) (e : pt = mix4 a b' c d b.v0 b.v1 b.v2 b.v3)
    (ex : addMul pt s (sub pt1 pt) = mix4 p q r w b.v0 b.v1 b.v2 b.v3) (s0 : 0 < s) :
    rayFacet np pt pt1 dir (b.facet 0) = exitCode q r p w ∧ rayFacet np pt pt1 dir (b.facet 1) = exitCode w p r q ∧
      rayFacet np pt pt1 dir (b.facet 2) = exitCode p w q r ∧ rayFacet np pt pt1 dir (b.facet 3) = exitCode r q w p := by
  obtain ⟨v0, v1, v2, v3⟩ := b
  simp only at hV e ex
  have dv : ∀ {D : ℚ}, D = det v0 v1 v2 v3 ∨ D = -det v0 v1 v2 v3 → D ≠ 0 := fun {D} h => by
    rcases h with h | h <;> rw [h]
    · exact hV
    · exact neg_ne_zero.2 hV
  have pm : ∀ {x y z u : ℚ}, mix4 x y z u v0 v1 v2 v3 = mix4 y z x u v1 v2 v0 v3 ∧ mix4 x y z u v0 v1 v2 v3 = mix4 y x z u v1 v0 v2 v3 ∧
      mix4 x y z u v0 v1 v2 v3 = mix4 u x z y v3 v0 v2 v1 ∧ mix4 x y z u v0 v1 v2 v3 = mix4 u z x y v3 v2 v0 v1 ∧
      mix4 x y z u v0 v1 v2 v3 = mix4 x u y z v0 v3 v1 v2 ∧ mix4 x y z u v0 v1 v2 v3 = mix4 x y u z v0 v1 v3 v2 ∧
      mix4 x y z u v0 v1 v2 v3 = mix4 z y u x v2 v1 v3 v0 ∧ mix4 x y z u v0 v1 v2 v3 = mix4 z u y x v2 v3 v1 v0 := by
    intro x y z u
    refine ⟨?_, ?_, ?_, ?_, ?_, ?_, ?_, ?_⟩ <;> refine V3.ext ?_ ?_ ?_ <;> simp only [mix4] <;> ring
  obtain ⟨m1, m2, m3, m4, m5, m6, m7, m8⟩ := @pm a b' c d
  obtain ⟨n1, n2, n3, n4, n5, n6, n7, n8⟩ := @pm p q r w
  refine ⟨(facet_cases ⟨v0, v1, v2, v3⟩ fun f => rayFacet np pt pt1 dir f = exitCode q r p w).1 ⟨?_, ?_⟩,
    (facet_cases ⟨v0, v1, v2, v3⟩ fun f => rayFacet np pt pt1 dir f = exitCode w p r q).2.1 ⟨?_, ?_⟩,
    (facet_cases ⟨v0, v1, v2, v3⟩ fun f => rayFacet np pt pt1 dir f = exitCode p w q r).2.2.1 ⟨?_, ?_⟩,
    (facet_cases ⟨v0, v1, v2, v3⟩ fun f => rayFacet np pt pt1 dir f = exitCode r q w p).2.2.2 ⟨?_, ?_⟩⟩
  · exact facet_exit np dir (dv (by simp only [det]; first | (left; ring1) | (right; ring1))) (by linarith) hb hc ha hd (by linarith) hq hr hp hw (by tauto) (e.trans m1) (ex.trans n1) s0
  · rw [← exitCode_swap]
    exact facet_exit np dir (dv (by simp only [det]; first | (left; ring1) | (right; ring1))) (by linarith) hb ha hc hd (by linarith) hq hp hr hw (by tauto) (e.trans m2) (ex.trans n2) s0
  · exact facet_exit np dir (dv (by simp only [det]; first | (left; ring1) | (right; ring1))) (by linarith) hd ha hc hb (by linarith) hw hp hr hq (by tauto) (e.trans m3) (ex.trans n3) s0
  · rw [← exitCode_swap]
    exact facet_exit np dir (dv (by simp only [det]; first | (left; ring1) | (right; ring1))) (by linarith) hd hc ha hb (by linarith) hw hr hp hq (by tauto) (e.trans m4) (ex.trans n4) s0
  · exact facet_exit np dir (dv (by simp only [det]; first | (left; ring1) | (right; ring1))) (by linarith) ha hd hb hc (by linarith) hp hw hq hr (by tauto) (e.trans m5) (ex.trans n5) s0
  · rw [← exitCode_swap]
    exact facet_exit np dir (dv (by simp only [det]; first | (left; ring1) | (right; ring1))) (by linarith) ha hb hd hc (by linarith) hp hq hw hr (by tauto) (e.trans m6) (ex.trans n6) s0
  · exact facet_exit np dir (dv (by simp only [det]; first | (left; ring1) | (right; ring1))) (by linarith) hc hb hd ha (by linarith) hr hq hw hp (by tauto) (e.trans m7) (ex.trans n7) s0
  · rw [← exitCode_swap]
    exact facet_exit np dir (dv (by simp only [det]; first | (left; ring1) | (right; ring1))) (by linarith) hc hd hb ha (by linarith) hr hw hq hp (by tauto) (e.trans m8) (ex.trans n8) s0

/-- The answers of a pair of facets, by the side on which the ray leaves. -/
theorem pair_code {p q r w : ℚ} (hp : 0 ≤ p) (hq : 0 ≤ q) (hr : 0 ≤ r) (hw : 0 ≤ w) (hx : p + q + r + w = 1) (hz : p = 0 ∨ q = 0 ∨ r = 0 ∨ w = 0) :
    (if exitCode q r p w = -1 ∨ exitCode w p r q = -1 then (-1 : Int) else if exitCode q r p w > 0 ∨ exitCode w p r q > 0 then 1 else 0) =
      if p * r - q * w = 0 then -1 else if 0 < p * r - q * w then 1 else 0 := by
  rcases hp.eq_or_lt with rfl | h1 <;> rcases hq.eq_or_lt with rfl | h2 <;> rcases hr.eq_or_lt with rfl | h3 <;> rcases hw.eq_or_lt with rfl | h4 <;>
    first
    | (exfalso; linarith)
    | (exfalso; rcases hz with h | h | h | h <;> linarith)
    | (have m1 := mul_pos h1 h3; have m2 := m1.ne'; have := h1.ne'; have := h3.ne'; clear hx hz; simp [exitCode, *]; done)
    | (have m1 := mul_pos h2 h4; have m2 := m1.ne'; have m3 := m1.le; have := h2.ne'; have := h4.ne'; clear hx hz; simp [exitCode, *]; done)
    | (clear hx hz; simp [exitCode, *]; done)
    | skip

/-- A patch that is not flat with a point away from the planes of its facets: conditions that a computation decides. -/
structure Curved (b : Patch) (pt : V3) : Prop where
  flat : b.flat = false
  d : ∀ i ∈ [0, 1, 2, 3], degenerate (b.facet i).1 (b.facet i).2.1 (b.facet i).2.2 = false
  p : ∀ i ∈ [0, 1, 2, 3], det pt (b.facet i).1 (b.facet i).2.1 (b.facet i).2.2 ≠ 0

theorem curved_parity (np : V3 → V3 → V3 → V3) {b : Patch} {pt : V3} (h : Curved b pt) (pt1 d : V3) (i : Bool) :
    patchParity np b pt pt1 d i = patchParity ones b pt pt1 d i := by
  obtain ⟨hf, hd, hp⟩ := h
  have hr : ∀ i ∈ [0, 1, 2, 3], rayFacet np pt pt1 d (b.facet i) = rayFacet ones pt pt1 d (b.facet i) := fun i hi => by
    unfold rayFacet
    rw [rayTriangle_off np pt1 d (hd i hi) (hp i hi), rayTriangle_off ones pt1 d (hd i hi) (hp i hi)]
  have hq : ∀ np' : V3 → V3 → V3 → V3, ∀ i ∈ [0, 1, 2, 3], pointTriangle np' pt (b.facet i).1 (b.facet i).2.1 (b.facet i).2.2 false = 0 := fun np' i hi => by
    unfold pointTriangle
    exact if_pos fun k => hp i hi (sgn_zero.1 k)
  unfold patchParity outsideParity correctPair facePair
  simp only [hr 0 (by simp), hr 1 (by simp), hr 2 (by simp), hr 3 (by simp), hq np 0 (by simp), hq np 1 (by simp), hq ones 0 (by simp), hq ones 1 (by simp), hf,
    Bool.not_false, if_true]

theorem curved_prism (np : V3 → V3 → V3 → V3) {p : List V3} {pt : V3} (h : ∀ b ∈ prismPatches p, Curved b pt)
    (d1 : degenerate (vtx p 0) (vtx p 1) (vtx p 2) = false) (d2 : degenerate (vtx p 3) (vtx p 4) (vtx p 5) = false)
    (p1 : det pt (vtx p 0) (vtx p 1) (vtx p 2) ≠ 0) (p2 : det pt (vtx p 3) (vtx p 4) (vtx p 5) ≠ 0) (pt1 d : V3) :
    insidePrism np p pt pt1 d = insidePrism ones p pt pt1 d := by
  unfold insidePrism triangleParity
  simp only [patches_congr (fun b hb => curved_parity np (h b hb) pt1 d b.inTet), d1, d2, Bool.not_false, if_true, rayTriangle_off np pt1 d d1 p1,
    rayTriangle_off np pt1 d d2 p2, rayTriangle_off ones pt1 d d1 p1, rayTriangle_off ones pt1 d d2 p2]

/-- Two coordinates that vanish at different points of a ray. -/
theorem clash {A B a b s1 s2 ω1 ω2 α β : ℚ} (h1 : A * s1 = -(ω1 * a)) (h2 : A * s2 = α - ω2 * a) (h3 : B * s1 = β - ω1 * b) (h4 : B * s2 = -(ω2 * b))
    (o1 : 0 < ω1) (o2 : 0 < ω2) (hα : 0 < α) (hβ : 0 < β) (hA : 0 ≤ A) (hB : 0 ≤ B) : False := by
  have e1 : A * (ω1 * s2 - ω2 * s1) = ω1 * α := by linear_combination ω1 * h2 - ω2 * h1
  have e2 : B * (ω2 * s1 - ω1 * s2) = ω2 * β := by linear_combination ω2 * h3 - ω1 * h4
  have p1 : 0 < ω1 * s2 - ω2 * s1 := pos_of_mul_pos_right (by rw [e1]; exact mul_pos o1 hα) hA
  have p2 : 0 < ω2 * s1 - ω1 * s2 := pos_of_mul_pos_right (by rw [e2]; exact mul_pos o2 hβ) hB
  linarith

/-- The answer of a facet to a ray through the interiors of two facets. -/
theorem facet_two (np : V3 → V3 → V3 → V3) {pt pt1 t1 t2 t3 t4 : V3} (dir : V3) {a b c d α β γ ω s α' β' γ' ω' s' : ℚ} (hV : det t1 t2 t3 t4 ≠ 0)
    (hs : a + b + c + d = 1) (d0 : d ≠ 0) (e : pt = mix4 a b c d t1 t2 t3 t4)
    (hx : α + β + γ + ω = 1) (ex : addMul pt s (sub pt1 pt) = mix4 α β γ ω t1 t2 t3 t4) (s0 : 0 < s)
    (hx' : α' + β' + γ' + ω' = 1) (ex' : addMul pt s' (sub pt1 pt) = mix4 α' β' γ' ω' t1 t2 t3 t4) (s0' : 0 < s')
    (hz : (ω = 0 ∧ 0 < α ∧ 0 < β ∧ 0 < γ) ∨ (ω' = 0 ∧ 0 < α' ∧ 0 < β' ∧ 0 < γ') ∨
      0 < ω ∧ 0 < ω' ∧ (α = 0 ∧ 0 < α' ∧ (β' = 0 ∧ 0 < β ∨ γ' = 0 ∧ 0 < γ) ∨ β = 0 ∧ 0 < β' ∧ (α' = 0 ∧ 0 < α ∨ γ' = 0 ∧ 0 < γ) ∨
        γ = 0 ∧ 0 < γ' ∧ (α' = 0 ∧ 0 < α ∨ β' = 0 ∧ 0 < β))) :
    rayTriangle np pt pt1 dir t1 t2 t3 true = if ω = 0 ∨ ω' = 0 then 1 else 0 := by
  have direct : ∀ {α β γ ω s : ℚ}, α + β + γ + ω = 1 → addMul pt s (sub pt1 pt) = mix4 α β γ ω t1 t2 t3 t4 → 0 < s → ω = 0 → 0 < α → 0 < β → 0 < γ →
      rayTriangle np pt pt1 dir t1 t2 t3 true = 1 := by
    intro α β γ ω s hx ex s0 hw ha hb hc
    subst hw
    have hq : ∀ k l : ℚ, (k * d - 0 * l) / (s * d) = k / s := fun k l => by field_simp; ring
    rw [facet_coords np dir hV hs hx e ex s0 d0 (by
      rintro ⟨k1, -, -⟩
      rw [zero_mul, sub_zero] at k1
      exact (mul_ne_zero ha.ne' d0) k1)]
    simp only [hq]
    exact if_pos ⟨div_pos ha s0, div_pos hb s0, div_pos hc s0⟩
  rcases hz with ⟨h, ha, hb, hc⟩ | ⟨h, ha, hb, hc⟩ | ⟨ho, ho', hz⟩
  · rw [if_pos (Or.inl h)]; exact direct hx ex s0 h ha hb hc
  · rw [if_pos (Or.inr h)]; exact direct hx' ex' s0' h ha hb hc
  · rw [if_neg (by rintro (k | k); exacts [ho.ne' k, ho'.ne' k])]
    obtain ⟨-, a1, a2, a3, -⟩ := ray_dets hs hx e ex
    obtain ⟨-, b1, b2, b3, -⟩ := ray_dets hs hx' e ex'
    have rel : ∀ {D k l m n o : ℚ}, s * D = (k * d - ω * n) * det t1 t2 t3 t4 → s' * D = (l * d - ω' * n) * det t1 t2 t3 t4 →
        (k * d - ω * n) / (s * d) * s = k - ω * (n / d) ∧ (k * d - ω * n) / (s * d) * s' = l - ω' * (n / d) := by
      intro D k l m n o h1 h2
      have s1 := s0.ne'
      refine ⟨by field_simp, ?_⟩
      have h3 : s' * (k * d - ω * n) = s * (l * d - ω' * n) := by
        apply mul_right_cancel₀ hV
        linear_combination s * h2 - s' * h1
      field_simp
      linear_combination h3
    obtain ⟨A1, A2⟩ := @rel _ _ _ 0 _ 0 a1 b1
    obtain ⟨B1, B2⟩ := @rel _ _ _ 0 _ 0 a2 b2
    obtain ⟨C1, C2⟩ := @rel _ _ _ 0 _ 0 a3 b3
    have hno : ¬(0 ≤ (α * d - ω * a) / (s * d) ∧ 0 ≤ (β * d - ω * b) / (s * d) ∧ 0 ≤ (γ * d - ω * c) / (s * d)) := by
      rintro ⟨hA, hB, hC⟩
      rcases hz with ⟨z, z', ⟨y, y'⟩ | ⟨y, y'⟩⟩ | ⟨z, z', ⟨y, y'⟩ | ⟨y, y'⟩⟩ | ⟨z, z', ⟨y, y'⟩ | ⟨y, y'⟩⟩
      · exact clash (by rw [A1, z, zero_sub]) A2 B1 (by rw [B2, y, zero_sub]) ho ho' z' y' hA hB
      · exact clash (by rw [A1, z, zero_sub]) A2 C1 (by rw [C2, y, zero_sub]) ho ho' z' y' hA hC
      · exact clash (by rw [B1, z, zero_sub]) B2 A1 (by rw [A2, y, zero_sub]) ho ho' z' y' hB hA
      · exact clash (by rw [B1, z, zero_sub]) B2 C1 (by rw [C2, y, zero_sub]) ho ho' z' y' hB hC
      · exact clash (by rw [C1, z, zero_sub]) C2 A1 (by rw [A2, y, zero_sub]) ho ho' z' y' hC hA
      · exact clash (by rw [C1, z, zero_sub]) C2 B1 (by rw [B2, y, zero_sub]) ho ho' z' y' hC hB
    rw [facet_coords np dir hV hs hx e ex s0 d0 (by
      rintro ⟨k1, k2, k3⟩
      exact hno ⟨by rw [k1, zero_div], by rw [k2, zero_div], by rw [k3, zero_div]⟩)]
    rw [if_neg (fun k => hno ⟨k.1.le, k.2.1.le, k.2.2.le⟩), if_neg (fun k => hno ⟨k.2.1.ge, k.2.2.1.le, k.2.2.2.le⟩), if_neg hno]

/-- Points of different facets, in the form of `facet_two`. -/
theorem two_cases {i j : Fin 4} (hij : i ≠ j) {c c' : Fin 4 → ℚ} (h : c i = 0) (hp : ∀ k, k ≠ i → 0 < c k) (h' : c' j = 0) (hp' : ∀ k, k ≠ j → 0 < c' k)
    (n0 n1 n2 n3 : Fin 4) (hall : [n0, n1, n2, n3].Nodup) :
    (c n3 = 0 ∧ 0 < c n0 ∧ 0 < c n1 ∧ 0 < c n2) ∨ (c' n3 = 0 ∧ 0 < c' n0 ∧ 0 < c' n1 ∧ 0 < c' n2) ∨
      0 < c n3 ∧ 0 < c' n3 ∧ (c n0 = 0 ∧ 0 < c' n0 ∧ (c' n1 = 0 ∧ 0 < c n1 ∨ c' n2 = 0 ∧ 0 < c n2) ∨ c n1 = 0 ∧ 0 < c' n1 ∧ (c' n0 = 0 ∧ 0 < c n0 ∨ c' n2 = 0 ∧ 0 < c n2) ∨
        c n2 = 0 ∧ 0 < c' n2 ∧ (c' n0 = 0 ∧ 0 < c n0 ∨ c' n1 = 0 ∧ 0 < c n1)) := by
  have hcov : ∀ (m0 m1 m2 m3 : Fin 4), [m0, m1, m2, m3].Nodup → ∀ k, k = m0 ∨ k = m1 ∨ k = m2 ∨ k = m3 := by decide
  simp only [List.nodup_cons, List.mem_cons, List.not_mem_nil, or_false, not_or, not_false_eq_true, List.nodup_nil, and_true] at hall
  have hi := hcov n0 n1 n2 n3 (by simp; tauto) i
  have hj := hcov n0 n1 n2 n3 (by simp; tauto) j
  obtain ⟨⟨x1, x2, x3⟩, ⟨x4, x5⟩, x6⟩ := hall
  rcases hi with rfl | rfl | rfl | rfl <;> rcases hj with rfl | rfl | rfl | rfl <;>
    first
    | exact absurd rfl hij
    | exact Or.inl ⟨h, hp _ x3, hp _ x5, hp _ x6⟩
    | exact Or.inr (Or.inl ⟨h', hp' _ x3, hp' _ x5, hp' _ x6⟩)
    | exact Or.inr (Or.inr ⟨hp _ (Ne.symm ‹_›), hp' _ (Ne.symm ‹_›), by
        first
        | exact Or.inl ⟨h, hp' _ ‹_›, Or.inl ⟨h', hp _ (Ne.symm ‹_›)⟩⟩
        | exact Or.inl ⟨h, hp' _ ‹_›, Or.inr ⟨h', hp _ (Ne.symm ‹_›)⟩⟩
        | exact Or.inr (Or.inl ⟨h, hp' _ (Ne.symm ‹_›), Or.inl ⟨h', hp _ ‹_›⟩⟩)
        | exact Or.inr (Or.inl ⟨h, hp' _ ‹_›, Or.inr ⟨h', hp _ (Ne.symm ‹_›)⟩⟩)
        | exact Or.inr (Or.inr ⟨h, hp' _ (Ne.symm ‹_›), Or.inl ⟨h', hp _ ‹_›⟩⟩)
        | exact Or.inr (Or.inr ⟨h, hp' _ (Ne.symm ‹_›), Or.inr ⟨h', hp _ ‹_›⟩⟩)⟩)

/-- The answers of the facets 0 and 1 to a ray through the interiors of two facets. -/
theorem facets_two (np : V3 → V3 → V3 → V3) (b : Patch) {pt pt1 : V3} (dir : V3) {k k' : Fin 4 → ℚ} {i j : Fin 4} {s s' : ℚ} (hV : det b.v0 b.v1 b.v2 b.v3 ≠ 0)
    (p1 : det pt b.v0 b.v1 b.v2 ≠ 0) (p2 : det pt b.v0 b.v3 b.v2 ≠ 0) (hij : i ≠ j)
    (h : k i = 0) (hp : ∀ l, l ≠ i → 0 < k l) (hk : k 0 + k 1 + k 2 + k 3 = 1) (ex : addMul pt s (sub pt1 pt) = mix4 (k 0) (k 1) (k 2) (k 3) b.v0 b.v1 b.v2 b.v3) (s0 : 0 < s)
    (h' : k' j = 0) (hp' : ∀ l, l ≠ j → 0 < k' l) (hk' : k' 0 + k' 1 + k' 2 + k' 3 = 1)
    (ex' : addMul pt s' (sub pt1 pt) = mix4 (k' 0) (k' 1) (k' 2) (k' 3) b.v0 b.v1 b.v2 b.v3) (s0' : 0 < s') :
    rayFacet np pt pt1 dir (b.facet 0) = (if k 3 = 0 ∨ k' 3 = 0 then 1 else 0) ∧ rayFacet np pt pt1 dir (b.facet 1) = (if k 1 = 0 ∨ k' 1 = 0 then 1 else 0) := by
  obtain ⟨v0, v1, v2, v3⟩ := b
  simp only at hV ex ex' p1 p2
  obtain ⟨a, b', c, d, hs, e⟩ := coords4 pt v0 v1 v2 v3 (by rw [funcG_det]; exact neg_ne_zero.2 hV)
  have dv : ∀ {D : ℚ}, D = det v0 v1 v2 v3 ∨ D = -det v0 v1 v2 v3 → D ≠ 0 := fun {D} h => by
    rcases h with h | h <;> rw [h]
    · exact hV
    · exact neg_ne_zero.2 hV
  have pm : ∀ {x y z u : ℚ}, mix4 x y z u v0 v1 v2 v3 = mix4 y z x u v1 v2 v0 v3 ∧ mix4 x y z u v0 v1 v2 v3 = mix4 y x z u v1 v0 v2 v3 ∧
      mix4 x y z u v0 v1 v2 v3 = mix4 u x z y v3 v0 v2 v1 ∧ mix4 x y z u v0 v1 v2 v3 = mix4 u z x y v3 v2 v0 v1 := by
    intro x y z u
    refine ⟨?_, ?_, ?_, ?_⟩ <;> refine V3.ext ?_ ?_ ?_ <;> simp only [mix4] <;> ring
  have d0 : d ≠ 0 := by
    rintro rfl
    apply p1
    rw [(ray_dets hs hk e ex).2.2.2.2, zero_mul, neg_zero]
  have b0 : b' ≠ 0 := by
    rintro rfl
    apply p2
    have q : ∀ {x y z u : ℚ}, mix4 x y z u v0 v1 v2 v3 = mix4 x u z y v0 v3 v2 v1 := by
      intro x y z u; refine V3.ext ?_ ?_ ?_ <;> simp only [mix4] <;> ring
    rw [(ray_dets (a := a) (b := d) (c := c) (d := 0) (by linarith) (α := k 0) (β := k 3) (γ := k 2) (ω := k 1) (by linarith) (e.trans q) (ex.trans q)).2.2.2.2, zero_mul, neg_zero]
  obtain ⟨m1, m2, m3, m4⟩ := @pm a b' c d
  obtain ⟨n1, n2, n3, n4⟩ := @pm (k 0) (k 1) (k 2) (k 3)
  obtain ⟨l1, l2, l3, l4⟩ := @pm (k' 0) (k' 1) (k' 2) (k' 3)
  have tc := two_cases hij h hp h' hp'
  refine ⟨(facet_cases ⟨v0, v1, v2, v3⟩ fun f => rayFacet np pt pt1 dir f = if k 3 = 0 ∨ k' 3 = 0 then 1 else 0).1 ⟨?_, ?_⟩,
    (facet_cases ⟨v0, v1, v2, v3⟩ fun f => rayFacet np pt pt1 dir f = if k 1 = 0 ∨ k' 1 = 0 then 1 else 0).2.1 ⟨?_, ?_⟩⟩
  · exact facet_two np dir (dv (by simp only [det]; first | (left; ring1) | (right; ring1))) (by linarith) d0 (e.trans m1) (by linarith) (ex.trans n1) s0 (by linarith) (ex'.trans l1) s0'
      (tc 1 2 0 3 (by decide))
  · exact facet_two np dir (dv (by simp only [det]; first | (left; ring1) | (right; ring1))) (by linarith) d0 (e.trans m2) (by linarith) (ex.trans n2) s0 (by linarith) (ex'.trans l2) s0'
      (tc 1 0 2 3 (by decide))
  · exact facet_two np dir (dv (by simp only [det]; first | (left; ring1) | (right; ring1))) (by linarith) b0 (e.trans m3) (by linarith) (ex.trans n3) s0 (by linarith) (ex'.trans l3) s0'
      (tc 3 0 2 1 (by decide))
  · exact facet_two np dir (dv (by simp only [det]; first | (left; ring1) | (right; ring1))) (by linarith) b0 (e.trans m4) (by linarith) (ex.trans n4) s0 (by linarith) (ex'.trans l4) s0'
      (tc 3 2 0 1 (by decide))

/-- The parity outside of the tetrahedron when both facets answer 0 or 1. -/
theorem outside_of (np : V3 → V3 → V3 → V3) (b : Patch) (pt pt1 dir : V3) (P Q : Prop) [Decidable P] [Decidable Q]
    (h1 : rayFacet np pt pt1 dir (b.facet 0) = if P then 1 else 0) (h2 : rayFacet np pt pt1 dir (b.facet 1) = if Q then 1 else 0) :
    outsideParity np b pt pt1 dir = if P ∧ Q then 0 else if P ∨ Q then 1 else 0 := by
  unfold outsideParity
  simp only [h1, h2]
  by_cases hP : P <;> by_cases hQ : Q <;> simp [hP, hQ]

end Verif.ExactCcd
