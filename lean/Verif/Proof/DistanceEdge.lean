import Verif.Proof.DistanceTri

/-!
Helper lemmas: the distance of two edges.
-/
namespace Verif.Dist

open Verif.Mat (Store)

/-- The square of the distance of two points of the edges. -/
noncomputable def eeAt (n : Nat) (u v w : Store ℝ) (s t : ℝ) : ℝ := Mat.l2NormSqr n fun i => w i + s * u i - t * v i

theorem eeAt_distSq (n : Nat) (ea0 ea1 eb0 eb1 : Store ℝ) (s t : ℝ) : eeAt n (sub ea1 ea0) (sub eb1 eb0) (sub ea0 eb0) s t
    = distSq n (fun i => (1 - s) * ea0 i + s * ea1 i) (fun i => (1 - t) * eb0 i + t * eb1 i) := by
  unfold eeAt distSq; rw [norm_eq]
  exact Finset.sum_congr rfl fun i _ => by simp only [sub]; ring

theorem eeAt_poly (n : Nat) (u v w : Store ℝ) (s t : ℝ) : eeAt n u v w s t = Mat.dot n w w + 2 * s * Mat.dot n u w - 2 * t * Mat.dot n v w
    + s ^ 2 * Mat.dot n u u - 2 * (s * t) * Mat.dot n u v + t ^ 2 * Mat.dot n v v := by
  unfold eeAt; simp only [norm_eq, dot_eq, Finset.mul_sum]
  rw [← Finset.sum_add_distrib, ← Finset.sum_sub_distrib, ← Finset.sum_add_distrib, ← Finset.sum_sub_distrib, ← Finset.sum_add_distrib]
  exact Finset.sum_congr rfl fun i _ => by ring

/-- Facts about the scalars a, b, c, d, e of two edges. -/
structure Scal (a b c d e : ℝ) : Prop where
  a0 : 0 ≤ a
  c0 : 0 ≤ c
  gram : 0 ≤ a * c - b * b
  az : a = 0 → b = 0 ∧ d = 0
  cz : c = 0 → b = 0 ∧ e = 0
  par : a * c - b * b = 0 → b * e - c * d = 0

theorem zero_of_gram {x y z : ℝ} (h : 0 ≤ x * y - z * z) (hx : x = 0) : z = 0 := by
  subst hx; nlinarith [mul_self_nonneg z, mul_self_eq_zero.1 (le_antisymm (by linarith : z * z ≤ 0) (mul_self_nonneg z))]

theorem dot_lin (n : Nat) (x y : ℝ) (a b : Store ℝ) : Mat.dot n (fun i => x * a i - y * b i) (fun i => x * a i - y * b i)
    = x ^ 2 * Mat.dot n a a - 2 * (x * y) * Mat.dot n a b + y ^ 2 * Mat.dot n b b := by
  simp only [dot_eq, Finset.mul_sum]
  rw [← Finset.sum_sub_distrib, ← Finset.sum_add_distrib]
  exact Finset.sum_congr rfl fun i _ => by ring

theorem scal (n : Nat) (u v w : Store ℝ) : Scal (Mat.dot n u u) (Mat.dot n u v) (Mat.dot n v v) (Mat.dot n u w) (Mat.dot n v w) := by
  refine ⟨by rw [norm_dot]; exact norm_nonneg _ _, by rw [norm_dot]; exact norm_nonneg _ _, gram_nonneg n u v, fun h => ⟨?_, ?_⟩, fun h => ⟨?_, ?_⟩, fun h => ?_⟩
  · exact zero_of_gram (gram_nonneg n u v) h
  · exact zero_of_gram (gram_nonneg n u w) h
  · rw [dot_comm]; exact zero_of_gram (gram_nonneg n v u) h
  · exact zero_of_gram (gram_nonneg n v w) h
  · have k := gram_nonneg n (fun i => Mat.dot n u v * v i - Mat.dot n v v * u i) w
    have e1 : Mat.dot n (fun i => Mat.dot n u v * v i - Mat.dot n v v * u i) (fun i => Mat.dot n u v * v i - Mat.dot n v v * u i)
        = Mat.dot n v v * (Mat.dot n u u * Mat.dot n v v - Mat.dot n u v * Mat.dot n u v) := by
      have : Mat.dot n (fun i => Mat.dot n u v * v i - Mat.dot n v v * u i) (fun i => Mat.dot n u v * v i - Mat.dot n v v * u i)
          = Mat.dot n u v ^ 2 * Mat.dot n v v - 2 * (Mat.dot n u v * Mat.dot n v v) * Mat.dot n u v + Mat.dot n v v ^ 2 * Mat.dot n u u := by
        rw [dot_lin, dot_comm n v u]
      rw [this]; ring
    have e2 : Mat.dot n (fun i => Mat.dot n u v * v i - Mat.dot n v v * u i) w = Mat.dot n u v * Mat.dot n v w - Mat.dot n v v * Mat.dot n u w := by
      generalize Mat.dot n u v = B
      generalize Mat.dot n v v = C
      simp only [dot_eq, Finset.mul_sum]
      rw [← Finset.sum_sub_distrib]
      exact Finset.sum_congr rfl fun i _ => by ring
    rw [← e2]
    exact zero_of_gram k (by rw [e1, h, mul_zero])

/-- The closest points. -/
theorem ee_le {n : Nat} {ea0 ea1 eb0 eb1 : Store ℝ} {s t : ℝ}
    (hs : Opt s (Mat.dot n (sub ea1 ea0) (sub ea1 ea0) * s - Mat.dot n (sub ea1 ea0) (sub eb1 eb0) * t + Mat.dot n (sub ea1 ea0) (sub ea0 eb0)))
    (ht : Opt t (-Mat.dot n (sub ea1 ea0) (sub eb1 eb0) * s + Mat.dot n (sub eb1 eb0) (sub eb1 eb0) * t - Mat.dot n (sub eb1 eb0) (sub ea0 eb0)))
    {x y : Store ℝ} (hx : x ∈ Segment ea0 ea1) (hy : y ∈ Segment eb0 eb1) :
    eeAt n (sub ea1 ea0) (sub eb1 eb0) (sub ea0 eb0) s t ≤ distSq n x y := by
  obtain ⟨r, r0, r1, rfl⟩ := hx
  obtain ⟨q, q0, q1, rfl⟩ := hy
  rw [← eeAt_distSq, eeAt_poly, eeAt_poly]
  have k := quad_nonneg n (sub ea1 ea0) (sub eb1 eb0) (r - s) (-(q - t))
  have h1 := hs.le r0 r1
  have h2 := ht.le q0 q1
  nlinarith

theorem ee_isDist {n : Nat} {ea0 ea1 eb0 eb1 : Store ℝ} {s t : ℝ}
    (hs : Opt s (Mat.dot n (sub ea1 ea0) (sub ea1 ea0) * s - Mat.dot n (sub ea1 ea0) (sub eb1 eb0) * t + Mat.dot n (sub ea1 ea0) (sub ea0 eb0)))
    (ht : Opt t (-Mat.dot n (sub ea1 ea0) (sub eb1 eb0) * s + Mat.dot n (sub eb1 eb0) (sub eb1 eb0) * t - Mat.dot n (sub eb1 eb0) (sub ea0 eb0)))
    {A B : Set (Store ℝ)} (hA : A ⊆ Segment ea0 ea1) (hB : B ⊆ Segment eb0 eb1) (hx : (fun i => (1 - s) * ea0 i + s * ea1 i) ∈ A)
    (hy : (fun i => (1 - t) * eb0 i + t * eb1 i) ∈ B) :
    IsDist n A B (eeAt n (sub ea1 ea0) (sub eb1 eb0) (sub ea0 eb0) s t) := by
  refine ⟨⟨_, hx, _, hy, eeAt_distSq _ _ _ _ _ _ _⟩, ?_⟩
  rintro z ⟨x, hx, y, hy, rfl⟩
  exact ee_le hs ht (hA hx) (hB hy)

theorem edgePart_sub (e0 e1 : Store ℝ) (k : Nat) : edgePart e0 e1 k ⊆ Segment e0 e1 := by
  intro x hx
  match k, hx with
  | 0, hx => rw [Set.mem_singleton_iff.1 hx]; exact ⟨0, le_refl _, by norm_num, by funext i; ring⟩
  | 1, hx => rw [Set.mem_singleton_iff.1 hx]; exact ⟨1, by norm_num, le_refl _, by funext i; ring⟩
  | k + 2, hx => exact hx

section scalar
variable {a b c d e : ℝ}

theorem quad2 (h : Scal a b c d e) (x y : ℝ) : 0 ≤ a * x ^ 2 - 2 * b * (x * y) + c * y ^ 2 := by
  rcases h.a0.eq_or_lt with ha | ha
  · have := h.az ha.symm
    rw [← ha, this.1]; nlinarith [mul_nonneg h.c0 (sq_nonneg y)]
  · have : 0 ≤ a * (a * x ^ 2 - 2 * b * (x * y) + c * y ^ 2) := by nlinarith [sq_nonneg (a * x - b * y), mul_nonneg h.gram (sq_nonneg y)]
    exact nonneg_of_mul_nonneg_right this ha

theorem clamp_lo (h : Scal a b c d e) {s s1 t1 : ℝ} (h1 : Opt s1 (a * s1 - b * t1 + d)) (g : -b * s1 + c * t1 - e = 0) (ht : t1 ≤ 0)
    (hs : Opt s (a * s - b * 0 + d)) : Opt 0 (-b * s + c * 0 - e) := by
  refine ⟨le_refl _, by norm_num, Or.inl rfl, Or.inr ?_⟩
  have k := quad2 h (s - s1) (0 - t1)
  have m1 := h1.le hs.1 hs.2.1
  have m2 := hs.le h1.1 h1.2.1
  rcases ht.eq_or_lt with rfl | ht
  · have z : a * (s - s1) ^ 2 = 0 := le_antisymm (by nlinarith) (mul_nonneg h.a0 (sq_nonneg _))
    rcases mul_eq_zero.1 z with z | z
    · rw [(h.az z).1] at g ⊢; linarith
    · have : s = s1 := by have := pow_eq_zero_iff (two_ne_zero) |>.1 z; linarith
      subst this; linarith
  · by_contra hx
    nlinarith [mul_pos (neg_pos.2 ht) (neg_pos.2 (not_le.1 hx))]

theorem clamp_hi (h : Scal a b c d e) {s s1 t1 : ℝ} (h1 : Opt s1 (a * s1 - b * t1 + d)) (g : -b * s1 + c * t1 - e = 0) (ht : 1 ≤ t1)
    (hs : Opt s (a * s - b * 1 + d)) : Opt 1 (-b * s + c * 1 - e) := by
  refine ⟨by norm_num, le_refl _, Or.inr ?_, Or.inl rfl⟩
  have k := quad2 h (s - s1) (1 - t1)
  have m1 := h1.le hs.1 hs.2.1
  have m2 := hs.le h1.1 h1.2.1
  rcases ht.eq_or_lt with rfl | ht
  · have z : a * (s - s1) ^ 2 = 0 := le_antisymm (by nlinarith) (mul_nonneg h.a0 (sq_nonneg _))
    rcases mul_eq_zero.1 z with z | z
    · rw [(h.az z).1] at g ⊢; linarith
    · have : s = s1 := by have := pow_eq_zero_iff (two_ne_zero) |>.1 z; linarith
      subst this; linarith
  · by_contra hx
    nlinarith [mul_pos (sub_pos.2 ht) (not_le.1 hx)]

/-- The closest point on an edge to one point. -/
theorem foot (ha : 0 ≤ a) {m : ℝ} (hz : a = 0 → m = 0) (h0 : 0 ≤ m) (h1 : m ≤ a) : ∃ s, Opt s (a * s - m) ∧ m = s * a ∧ a * s - m = 0 ∧ (a = 0 → s = 0) := by
  rcases ha.eq_or_lt with h | h
  · subst h
    have := hz rfl
    subst this
    exact ⟨0, ⟨le_refl _, by norm_num, Or.inl rfl, Or.inr (by simp)⟩, by simp, by simp, fun _ => rfl⟩
  · refine ⟨m / a, ⟨div_nonneg h0 ha, (div_le_one h).2 h1, Or.inr ?_, Or.inr ?_⟩, by field_simp, by field_simp; ring, fun k => absurd k h.ne'⟩
    · rw [mul_div_cancel₀ _ h.ne']; linarith
    · rw [mul_div_cancel₀ _ h.ne']; linarith

/-- The closest points of an edge and a line. -/
theorem strip_lo (hc : 0 < c) (h : b * e - c * d ≤ 0) : Opt 0 (a * 0 - b * (e / c) + d) ∧ -b * 0 + c * (e / c) - e = 0 := by
  refine ⟨⟨le_refl _, by norm_num, Or.inl rfl, Or.inr ?_⟩, by field_simp; ring⟩
  have : a * 0 - b * (e / c) + d = -(b * e - c * d) / c := by field_simp; ring
  rw [this]; exact div_nonneg (by linarith) hc.le

theorem strip_hi (hc : 0 < c) (h : a * c - b * b ≤ b * e - c * d) : Opt 1 (a * 1 - b * ((e + b) / c) + d) ∧ -b * 1 + c * ((e + b) / c) - e = 0 := by
  refine ⟨⟨by norm_num, le_refl _, Or.inr ?_, Or.inl rfl⟩, by field_simp; ring⟩
  have : a * 1 - b * ((e + b) / c) + d = -(b * e - c * d - (a * c - b * b)) / c := by field_simp; ring
  rw [this]; exact div_nonpos_of_nonpos_of_nonneg (by linarith) hc.le

theorem strip_mid (hD : 0 < a * c - b * b) (h0 : 0 ≤ b * e - c * d) (h1 : b * e - c * d ≤ a * c - b * b) :
    Opt ((b * e - c * d) / (a * c - b * b)) (a * ((b * e - c * d) / (a * c - b * b)) - b * ((a * e - b * d) / (a * c - b * b)) + d)
      ∧ a * ((b * e - c * d) / (a * c - b * b)) - b * ((a * e - b * d) / (a * c - b * b)) + d = 0
      ∧ -b * ((b * e - c * d) / (a * c - b * b)) + c * ((a * e - b * d) / (a * c - b * b)) - e = 0 := by
  have g0 : a * ((b * e - c * d) / (a * c - b * b)) - b * ((a * e - b * d) / (a * c - b * b)) + d = 0 := by
    rw [mul_div_assoc', mul_div_assoc', ← sub_div, div_add' _ _ _ hD.ne', div_eq_zero_iff]; left; ring
  have g1 : -b * ((b * e - c * d) / (a * c - b * b)) + c * ((a * e - b * d) / (a * c - b * b)) - e = 0 := by
    rw [mul_div_assoc', mul_div_assoc', ← add_div, div_sub' hD.ne', div_eq_zero_iff]; left; ring
  exact ⟨⟨div_nonneg h0 hD.le, (div_le_one hD).2 h1, Or.inr g0.le, Or.inr g0.ge⟩, g0, g1⟩

/-- The first half of the code. -/
noncomputable def ee1 (eps a b c d e : ℝ) : Ee :=
  open Classical in
  if a * c - b * b < eps then ⟨0, 1, e, c⟩
  else if b * e - c * d < 0 then ⟨0, a * c - b * b, e, c⟩
  else if b * e - c * d > a * c - b * b then ⟨a * c - b * b, a * c - b * b, e + b, c⟩
  else ⟨b * e - c * d, a * c - b * b, a * e - b * d, a * c - b * b⟩

/-- The numbers stand for a solution. -/
structure Sol (a b c d e : ℝ) (x : Ee) (s t : ℝ) : Prop where
  os : Opt s (a * s - b * t + d)
  ot : Opt t (-b * s + c * t - e)
  sN : x.sN = s * x.sD
  tN : x.tN = t * x.tD
  sz : x.sD = 0 → s = 0
  tz : x.tD = 0 → t = 0

theorem pos_of_gram (h : Scal a b c d e) (hD : 0 < a * c - b * b) : 0 < a ∧ 0 < c := by
  constructor
  · refine lt_of_le_of_ne h.a0 fun z => ?_
    rw [← z, (h.az z.symm).1] at hD; simp at hD
  · refine lt_of_le_of_ne h.c0 fun z => ?_
    rw [← z, (h.cz z.symm).1] at hD; simp at hD

theorem ee1_spec (h : Scal a b c d e) (hc : 0 < c) {eps : ℝ} (he : 0 < eps) (hD : a * c - b * b = 0 ∨ eps ≤ a * c - b * b) :
    ∃ s t, Opt s (a * s - b * t + d) ∧ -b * s + c * t - e = 0 ∧ (ee1 eps a b c d e).sN = s * (ee1 eps a b c d e).sD
      ∧ (ee1 eps a b c d e).tN = t * (ee1 eps a b c d e).tD ∧ 0 < (ee1 eps a b c d e).sD ∧ 0 < (ee1 eps a b c d e).tD := by
  unfold ee1
  split_ifs with h0 h1 h2
  · have z : a * c - b * b = 0 := hD.resolve_right (not_le.2 h0)
    obtain ⟨o, g⟩ := strip_lo (a := a) hc (h.par z).le
    exact ⟨0, e / c, o, g, by simp, by field_simp, by norm_num, hc⟩
  · have p : 0 < a * c - b * b := by linarith
    obtain ⟨o, g⟩ := strip_lo (a := a) hc h1.le
    exact ⟨0, e / c, o, g, by simp, by field_simp, p, hc⟩
  · have p : 0 < a * c - b * b := by linarith
    obtain ⟨o, g⟩ := strip_hi (a := a) hc (le_of_lt h2)
    exact ⟨1, (e + b) / c, o, g, by simp, by field_simp, p, hc⟩
  · have p : 0 < a * c - b * b := by linarith
    obtain ⟨o, -, g⟩ := strip_mid p (not_lt.1 h1) (not_lt.1 h2)
    exact ⟨_, _, o, g, (div_mul_cancel₀ _ p.ne').symm, (div_mul_cancel₀ _ p.ne').symm, p, p⟩

theorem eeNumbers_sol (h : Scal a b c d e) (hc : 0 < c) {eps : ℝ} (he : 0 < eps) (hD : a * c - b * b = 0 ∨ eps ≤ a * c - b * b) :
    ∃ s t, Sol a b c d e (eeNumbers eps a b c d e) s t := by
  obtain ⟨s1, t1, o, g, es, et, ps, pt⟩ := ee1_spec h hc he hD
  have : eeNumbers eps a b c d e = (open Classical in
    if (ee1 eps a b c d e).tN < 0 then
      if -d < 0 then { ee1 eps a b c d e with tN := 0, sN := 0 }
      else if -d > a then { ee1 eps a b c d e with tN := 0, sN := (ee1 eps a b c d e).sD }
      else { ee1 eps a b c d e with tN := 0, sN := -d, sD := a }
    else if (ee1 eps a b c d e).tN > (ee1 eps a b c d e).tD then
      if -d + b < 0 then { ee1 eps a b c d e with tN := (ee1 eps a b c d e).tD, sN := 0 }
      else if -d + b > a then { ee1 eps a b c d e with tN := (ee1 eps a b c d e).tD, sN := (ee1 eps a b c d e).sD }
      else { ee1 eps a b c d e with tN := (ee1 eps a b c d e).tD, sN := -d + b, sD := a }
    else ee1 eps a b c d e) := rfl
  rw [this]
  generalize ee1 eps a b c d e = x at *
  have t0 : x.tN < 0 → t1 ≤ 0 := fun k => by by_contra q; rw [et] at k; nlinarith [mul_pos (not_le.1 q) pt]
  have t2 : x.tN > x.tD → 1 ≤ t1 := fun k => by by_contra q; rw [et] at k; nlinarith [mul_pos (sub_pos.2 (not_le.1 q)) pt]
  split_ifs with h0 h1 h2 h3 h4 h5
  · have os : Opt 0 (a * 0 - b * 0 + d) := ⟨le_refl _, by norm_num, Or.inl rfl, Or.inr (by linarith)⟩
    exact ⟨0, 0, os, clamp_lo h o g (t0 h0) os, by simp, by simp, fun _ => rfl, fun _ => rfl⟩
  · have os : Opt 1 (a * 1 - b * 0 + d) := ⟨by norm_num, le_refl _, Or.inr (by linarith), Or.inl rfl⟩
    exact ⟨1, 0, os, clamp_lo h o g (t0 h0) os, by simp, by simp, fun k => absurd k ps.ne', fun _ => rfl⟩
  · obtain ⟨s, os, e1, -, z⟩ := foot (m := -d) h.a0 (fun k => by rw [(h.az k).2]; simp) (not_lt.1 h1) (not_lt.1 h2)
    have os : Opt s (a * s - b * 0 + d) := by convert os using 1; ring
    exact ⟨s, 0, os, clamp_lo h o g (t0 h0) os, e1, by simp, z, fun _ => rfl⟩
  · have os : Opt 0 (a * 0 - b * 1 + d) := ⟨le_refl _, by norm_num, Or.inl rfl, Or.inr (by linarith)⟩
    exact ⟨0, 1, os, clamp_hi h o g (t2 h3) os, by simp, by simp, fun _ => rfl, fun k => absurd k pt.ne'⟩
  · have os : Opt 1 (a * 1 - b * 1 + d) := ⟨by norm_num, le_refl _, Or.inr (by linarith), Or.inl rfl⟩
    exact ⟨1, 1, os, clamp_hi h o g (t2 h3) os, by simp, by simp, fun k => absurd k ps.ne', fun k => absurd k pt.ne'⟩
  · obtain ⟨s, os, e1, -, z⟩ := foot (m := -d + b) h.a0 (fun k => by rw [(h.az k).2, (h.az k).1]; simp) (not_lt.1 h4) (not_lt.1 h5)
    have os : Opt s (a * s - b * 1 + d) := by convert os using 1; ring
    exact ⟨s, 1, os, clamp_hi h o g (t2 h3) os, e1, by simp, z, fun k => absurd k pt.ne'⟩
  · refine ⟨s1, t1, o, ⟨?_, ?_, Or.inr g.le, Or.inr g.ge⟩, es, et, fun k => absurd k ps.ne', fun k => absurd k pt.ne'⟩
    · by_contra q; rw [et] at h0; nlinarith [mul_pos (neg_pos.2 (not_le.1 q)) pt]
    · by_contra q; rw [et] at h3; nlinarith [mul_pos (sub_pos.2 (not_le.1 q)) pt]

/-- The category of the first edge in the first half of the code. -/
noncomputable def ee1Cate (eps a b c d e : ℝ) : Nat :=
  open Classical in
  if a * c - b * b < eps then 0 else if b * e - c * d < 0 then 0 else if b * e - c * d > a * c - b * b then 1 else 2

/-- Where the closest point is for a category. -/
def At (k : Nat) (x : ℝ) : Prop := (k = 0 → x = 0) ∧ (k = 1 → x = 1)

theorem eeCategories_sol (h : Scal a b c d e) {eps : ℝ} (he : 0 < eps) (hD : a * c - b * b = 0 ∨ eps ≤ a * c - b * b) :
    ∃ s t, Sol a b c d e (eeCategories eps a b c d e).1 s t ∧ At (eeCategories eps a b c d e).2.1 s ∧ At (eeCategories eps a b c d e).2.2 t := by
  have e2 : eeCategories eps a b c d e = (open Classical in
    let x := (ee1 eps a b c d e, ee1Cate eps a b c d e)
    if x.1.tN ≤ 0 then
      if -d < 0 then ({ x.1 with tN := 0, sN := 0 }, 0, 0)
      else if -d > a then ({ x.1 with tN := 0, sN := x.1.sD }, 1, 0)
      else ({ x.1 with tN := 0, sN := -d, sD := a }, 2, 0)
    else if x.1.tN ≥ x.1.tD then
      if -d + b < 0 then ({ x.1 with tN := x.1.tD, sN := 0 }, 0, 1)
      else if -d + b > a then ({ x.1 with tN := x.1.tD, sN := x.1.sD }, 1, 1)
      else ({ x.1 with tN := x.1.tD, sN := -d + b, sD := a }, 2, 1)
    else (x.1, x.2, 2)) := by
    have : (open Classical in if a * c - b * b < eps then ((⟨0, 1, e, c⟩, 0) : Ee × Nat)
      else if b * e - c * d < 0 then (⟨0, a * c - b * b, e, c⟩, 0)
      else if b * e - c * d > a * c - b * b then (⟨a * c - b * b, a * c - b * b, e + b, c⟩, 1)
      else (⟨b * e - c * d, a * c - b * b, a * e - b * d, a * c - b * b⟩, 2)) = (ee1 eps a b c d e, ee1Cate eps a b c d e) := by
      unfold ee1 ee1Cate; split_ifs <;> rfl
    unfold eeCategories; simp only []; rw [this]
  rw [e2]; clear e2; simp only []
  have a0 : At 0 0 := ⟨fun _ => rfl, fun k => absurd k (by norm_num)⟩
  have a1 : At 1 1 := ⟨fun k => absurd k (by norm_num), fun _ => rfl⟩
  have a2 : ∀ x, At 2 x := fun x => ⟨fun k => absurd k (by norm_num), fun k => absurd k (by norm_num)⟩
  rcases h.c0.eq_or_lt with hc | hc
  · obtain ⟨hb, hE⟩ := h.cz hc.symm
    have g : ∀ s, Opt 0 (-b * s + c * 0 - e) := fun s => by rw [hb, hE]; exact ⟨le_refl _, by norm_num, Or.inl rfl, Or.inr (by simp)⟩
    have ps : 0 < (ee1 eps a b c d e).sD := by unfold ee1; rw [← hc, hb]; simp [he]
    have h0 : (ee1 eps a b c d e).tN ≤ 0 := by unfold ee1; rw [← hc, hb, hE]; simp [he]
    generalize ee1 eps a b c d e = x at *
    rw [if_pos h0]
    split_ifs with h1 h2
    · have os : Opt 0 (a * 0 - b * 0 + d) := ⟨le_refl _, by norm_num, Or.inl rfl, Or.inr (by linarith)⟩
      exact ⟨0, 0, ⟨os, g 0, by simp, by simp, fun _ => rfl, fun _ => rfl⟩, a0, a0⟩
    · have os : Opt 1 (a * 1 - b * 0 + d) := ⟨by norm_num, le_refl _, Or.inr (by linarith), Or.inl rfl⟩
      exact ⟨1, 0, ⟨os, g 1, by simp, by simp, fun k => absurd k ps.ne', fun _ => rfl⟩, a1, a0⟩
    · obtain ⟨s, os, e1, -, z⟩ := foot (m := -d) h.a0 (fun k => by rw [(h.az k).2]; simp) (not_lt.1 h1) (not_lt.1 h2)
      have os : Opt s (a * s - b * 0 + d) := by convert os using 1; ring
      exact ⟨s, 0, ⟨os, g s, e1, by simp, z, fun _ => rfl⟩, a2 s, a0⟩
  obtain ⟨s1, t1, o, g, es, et, ps, pt⟩ := ee1_spec h hc he hD
  have hat : At (ee1Cate eps a b c d e) s1 := by
    have k : (ee1 eps a b c d e).sN / (ee1 eps a b c d e).sD = s1 := by rw [es, mul_div_cancel_right₀ _ ps.ne']
    rw [← k]; unfold ee1 ee1Cate
    split_ifs with h0 h1 h2
    · simpa using a0
    · simpa using a0
    · have : a * c - b * b ≠ 0 := by
        intro z; rcases hD with q | q <;> linarith
      simpa [this] using a1
    · exact a2 _
  generalize ee1 eps a b c d e = x at *
  have t0 : x.tN ≤ 0 → t1 ≤ 0 := fun k => by by_contra q; rw [et] at k; nlinarith [mul_pos (not_le.1 q) pt]
  have t2 : x.tN ≥ x.tD → 1 ≤ t1 := fun k => by by_contra q; rw [et] at k; nlinarith [mul_pos (sub_pos.2 (not_le.1 q)) pt]
  split_ifs with h0 h1 h2 h3 h4 h5
  · have os : Opt 0 (a * 0 - b * 0 + d) := ⟨le_refl _, by norm_num, Or.inl rfl, Or.inr (by linarith)⟩
    exact ⟨0, 0, ⟨os, clamp_lo h o g (t0 h0) os, by simp, by simp, fun _ => rfl, fun _ => rfl⟩, a0, a0⟩
  · have os : Opt 1 (a * 1 - b * 0 + d) := ⟨by norm_num, le_refl _, Or.inr (by linarith), Or.inl rfl⟩
    exact ⟨1, 0, ⟨os, clamp_lo h o g (t0 h0) os, by simp, by simp, fun k => absurd k ps.ne', fun _ => rfl⟩, a1, a0⟩
  · obtain ⟨s, os, e1, -, z⟩ := foot (m := -d) h.a0 (fun k => by rw [(h.az k).2]; simp) (not_lt.1 h1) (not_lt.1 h2)
    have os : Opt s (a * s - b * 0 + d) := by convert os using 1; ring
    exact ⟨s, 0, ⟨os, clamp_lo h o g (t0 h0) os, e1, by simp, z, fun _ => rfl⟩, a2 s, a0⟩
  · have os : Opt 0 (a * 0 - b * 1 + d) := ⟨le_refl _, by norm_num, Or.inl rfl, Or.inr (by linarith)⟩
    exact ⟨0, 1, ⟨os, clamp_hi h o g (t2 h3) os, by simp, by simp, fun _ => rfl, fun k => absurd k pt.ne'⟩, a0, a1⟩
  · have os : Opt 1 (a * 1 - b * 1 + d) := ⟨by norm_num, le_refl _, Or.inr (by linarith), Or.inl rfl⟩
    exact ⟨1, 1, ⟨os, clamp_hi h o g (t2 h3) os, by simp, by simp, fun k => absurd k ps.ne', fun k => absurd k pt.ne'⟩, a1, a1⟩
  · obtain ⟨s, os, e1, -, z⟩ := foot (m := -d + b) h.a0 (fun k => by rw [(h.az k).2, (h.az k).1]; simp) (not_lt.1 h4) (not_lt.1 h5)
    have os : Opt s (a * s - b * 1 + d) := by convert os using 1; ring
    exact ⟨s, 1, ⟨os, clamp_hi h o g (t2 h3) os, e1, by simp, z, fun k => absurd k pt.ne'⟩, a2 s, a1⟩
  · refine ⟨s1, t1, ⟨o, ⟨?_, ?_, Or.inr g.le, Or.inr g.ge⟩, es, et, fun k => absurd k ps.ne', fun k => absurd k pt.ne'⟩, hat, a2 t1⟩
    · by_contra q; rw [et] at h0; nlinarith [mul_pos (neg_pos.2 (not_le.1 q)) pt]
    · by_contra q; rw [et] at h3; nlinarith [mul_pos (sub_pos.2 (not_le.1 q)) pt]

theorem eeValue_sol {n : Nat} {u v w : Store ℝ} {x : Ee} {s t eps : ℝ} (hx : Sol a b c d e x s t) (hs : x.sN = 0 ∨ eps ≤ |x.sN|) (ht : x.tN = 0 ∨ eps ≤ |x.tN|)
    (he : 0 < eps) : eeValue eps n u v w x = eeAt n u v w s t := by
  have key : ∀ N D r : ℝ, N = r * D → (D = 0 → r = 0) → (N = 0 ∨ eps ≤ |N|) → (open Classical in if |N| < eps then 0 else N / D) = r := by
    intro N D r e1 e2 e3
    by_cases hD : D = 0
    · have : N = 0 := by rw [e1, hD, mul_zero]
      rw [if_pos (by rw [this, abs_zero]; exact he), e2 hD]
    · rcases e3 with e3 | e3
      · rw [if_pos (by rw [e3, abs_zero]; exact he)]
        exact ((mul_eq_zero.1 (e1.symm.trans e3)).resolve_right hD).symm
      · rw [if_neg (not_lt.2 e3), e1, mul_div_cancel_right₀ _ hD]
  unfold eeValue eeAt; simp only []
  rw [key _ _ s hx.sN hx.sz hs, key _ _ t hx.tN hx.tz ht]

end scalar

theorem At.mem {k : Nat} {x : ℝ} (h : At k x) (h0 : 0 ≤ x) (h1 : x ≤ 1) (e0 e1 : Store ℝ) : (fun i => (1 - x) * e0 i + x * e1 i) ∈ edgePart e0 e1 k := by
  match k, h with
  | 0, h => rw [h.1 rfl]; exact Set.mem_singleton_iff.2 (by funext i; ring)
  | 1, h => rw [h.2 rfl]; exact Set.mem_singleton_iff.2 (by funext i; ring)
  | k + 2, h => exact ⟨x, h0, h1, rfl⟩

/-! ### `ee_distance_type` -/

/-- The position of the closest points for a type. -/
def EPart (a b c d e : ℝ) (k : Nat) (s t : ℝ) : Prop :=
  (k = 0 ∧ s = 0 ∧ t = 0) ∨ (k = 1 ∧ s = 0 ∧ t = 1) ∨ (k = 3 ∧ s = 1 ∧ t = 0) ∨ (k = 4 ∧ s = 1 ∧ t = 1)
    ∨ (k = 2 ∧ s = 0 ∧ -b * s + c * t - e = 0 ∧ c ≠ 0) ∨ (k = 5 ∧ s = 1 ∧ -b * s + c * t - e = 0 ∧ c ≠ 0)
    ∨ (k = 6 ∧ t = 0 ∧ a * s - b * t + d = 0 ∧ a ≠ 0) ∨ (k = 7 ∧ t = 1 ∧ a * s - b * t + d = 0 ∧ a ≠ 0)
    ∨ (k = 8 ∧ a * s - b * t + d = 0 ∧ -b * s + c * t - e = 0 ∧ a * c - b * b ≠ 0)

open Classical in
/-- The second half of the code. -/
noncomputable def ee2 (a b d : ℝ) (x : ℝ × ℝ × Nat) : Nat :=
  if x.1 ≤ 0 then (if -d ≤ 0 then 0 else if -d ≥ a then 3 else 6)
  else if x.1 ≥ x.2.1 then (if -d + b ≤ 0 then 1 else if -d + b ≥ a then 4 else 7)
  else x.2.2

theorem ee2_part {a b c d e : ℝ} (h : Scal a b c d e) {x : ℝ × ℝ × Nat}
    (hx : (c = 0 ∧ x.1 = 0) ∨ ∃ s t, Opt s (a * s - b * t + d) ∧ -b * s + c * t - e = 0 ∧ x.1 = t * x.2.1 ∧ 0 < x.2.1 ∧ (EPart a b c d e x.2.2 s t)) :
    ∃ s t, Opt s (a * s - b * t + d) ∧ Opt t (-b * s + c * t - e) ∧ EPart a b c d e (ee2 a b d x) s t := by
  have lo : (∀ s, Opt s (a * s - b * 0 + d) → Opt 0 (-b * s + c * 0 - e)) →
      ∃ s t, Opt s (a * s - b * t + d) ∧ Opt t (-b * s + c * t - e) ∧ EPart a b c d e (open Classical in if -d ≤ 0 then 0 else if -d ≥ a then 3 else 6) s t := by
    intro g
    split_ifs with h1 h2
    · have os : Opt 0 (a * 0 - b * 0 + d) := ⟨le_refl _, by norm_num, Or.inl rfl, Or.inr (by linarith)⟩
      exact ⟨0, 0, os, g _ os, by simp [EPart]⟩
    · have os : Opt 1 (a * 1 - b * 0 + d) := ⟨by norm_num, le_refl _, Or.inr (by linarith), Or.inl rfl⟩
      exact ⟨1, 0, os, g _ os, by simp [EPart]⟩
    · obtain ⟨s, os, -, e1, z⟩ := foot (m := -d) h.a0 (fun k => by rw [(h.az k).2]; simp) (not_le.1 h1).le (not_le.1 h2).le
      have os : Opt s (a * s - b * 0 + d) := by convert os using 1; ring
      refine ⟨s, 0, os, g _ os, Or.inr (Or.inr (Or.inr (Or.inr (Or.inr (Or.inr (Or.inl ⟨rfl, rfl, by linarith, ?_⟩))))))⟩
      intro k; rw [ge_iff_le, k] at h2; exact h2 (not_le.1 h1).le
  rcases hx with ⟨hc, hx⟩ | ⟨s1, t1, o, g, et, pt, part⟩
  · unfold ee2; rw [if_pos hx.le]
    refine lo fun s _ => ?_
    rw [(h.cz hc).1, (h.cz hc).2]; exact ⟨le_refl _, by norm_num, Or.inl rfl, Or.inr (by simp)⟩
  · unfold ee2
    by_cases h0 : x.1 ≤ 0
    · rw [if_pos h0]
      refine lo fun s os => clamp_lo h o g ?_ os
      by_contra q; rw [et] at h0; nlinarith [mul_pos (not_le.1 q) pt]
    rw [if_neg h0]
    by_cases h3 : x.1 ≥ x.2.1
    · rw [if_pos h3]
      have t2 : 1 ≤ t1 := by by_contra q; rw [et] at h3; nlinarith [mul_pos (sub_pos.2 (not_le.1 q)) pt]
      split_ifs with h1 h2
      · have os : Opt 0 (a * 0 - b * 1 + d) := ⟨le_refl _, by norm_num, Or.inl rfl, Or.inr (by linarith)⟩
        exact ⟨0, 1, os, clamp_hi h o g t2 os, by simp [EPart]⟩
      · have os : Opt 1 (a * 1 - b * 1 + d) := ⟨by norm_num, le_refl _, Or.inr (by linarith), Or.inl rfl⟩
        exact ⟨1, 1, os, clamp_hi h o g t2 os, by simp [EPart]⟩
      · obtain ⟨s, os, -, e1, z⟩ := foot (m := -d + b) h.a0 (fun k => by rw [(h.az k).2, (h.az k).1]; simp) (not_le.1 h1).le (not_le.1 h2).le
        have os : Opt s (a * s - b * 1 + d) := by convert os using 1; ring
        refine ⟨s, 1, os, clamp_hi h o g t2 os, Or.inr (Or.inr (Or.inr (Or.inr (Or.inr (Or.inr (Or.inr (Or.inl ⟨rfl, rfl, by linarith, ?_⟩)))))))⟩
        intro k; rw [ge_iff_le, k] at h2; exact h2 (not_le.1 h1).le
    rw [if_neg h3]
    refine ⟨s1, t1, o, ⟨?_, ?_, Or.inr g.le, Or.inr g.ge⟩, part⟩
    · by_contra q; rw [et] at h0; nlinarith [mul_pos (neg_pos.2 (not_le.1 q)) pt]
    · by_contra q; rw [et] at h3; nlinarith [mul_pos (sub_pos.2 (not_le.1 q)) pt]

/-- The branch for edges that cross or are nearly parallel. -/
def Special (tol : ℝ) (u v w : Store ℝ) : Prop :=
  let a := Mat.dot 3 u u; let b := Mat.dot 3 u v; let c := Mat.dot 3 v v; let d := Mat.dot 3 u w; let e := Mat.dot 3 v w
  0 < b * e - c * d ∧ b * e - c * d < a * c - b * b ∧ 0 < a * e - b * d ∧ a * e - b * d < a * c - b * b
    ∧ (Mat.dot 3 (Mat.cross3 u v) w = 0 ∨ Mat.l2NormSqr 3 (Mat.cross3 u v) < tol * a * c)

theorem eeType_part {tol : ℝ} {ea0 ea1 eb0 eb1 : Store ℝ} (hS : ¬Special tol (sub ea1 ea0) (sub eb1 eb0) (sub ea0 eb0)) :
    ∃ s t, Opt s (Mat.dot 3 (sub ea1 ea0) (sub ea1 ea0) * s - Mat.dot 3 (sub ea1 ea0) (sub eb1 eb0) * t + Mat.dot 3 (sub ea1 ea0) (sub ea0 eb0))
    ∧ Opt t (-Mat.dot 3 (sub ea1 ea0) (sub eb1 eb0) * s + Mat.dot 3 (sub eb1 eb0) (sub eb1 eb0) * t - Mat.dot 3 (sub eb1 eb0) (sub ea0 eb0))
    ∧ EPart (Mat.dot 3 (sub ea1 ea0) (sub ea1 ea0)) (Mat.dot 3 (sub ea1 ea0) (sub eb1 eb0)) (Mat.dot 3 (sub eb1 eb0) (sub eb1 eb0))
      (Mat.dot 3 (sub ea1 ea0) (sub ea0 eb0)) (Mat.dot 3 (sub eb1 eb0) (sub ea0 eb0)) (eeType tol ea0 ea1 eb0 eb1) s t := by
  have h := scal 3 (sub ea1 ea0) (sub eb1 eb0) (sub ea0 eb0)
  unfold eeType; simp only [← norm_dot 3 (sub ea1 ea0), ← norm_dot 3 (sub eb1 eb0)]
  unfold Special at hS; simp only [] at hS
  generalize Mat.dot 3 (sub ea1 ea0) (sub ea1 ea0) = a at *
  generalize Mat.dot 3 (sub ea1 ea0) (sub eb1 eb0) = b at *
  generalize Mat.dot 3 (sub eb1 eb0) (sub eb1 eb0) = c at *
  generalize Mat.dot 3 (sub ea1 ea0) (sub ea0 eb0) = d at *
  generalize Mat.dot 3 (sub eb1 eb0) (sub ea0 eb0) = e at *
  generalize Mat.dot 3 (Mat.cross3 (sub ea1 ea0) (sub eb1 eb0)) (sub ea0 eb0) = X at *
  generalize Mat.l2NormSqr 3 (Mat.cross3 (sub ea1 ea0) (sub eb1 eb0)) = Y at *
  refine ee2_part h ?_
  split_ifs with h0 h1 h2 h3
  · rcases h.c0.eq_or_lt with hc | hc
    · exact Or.inl ⟨hc.symm, (h.cz hc.symm).2⟩
    · obtain ⟨o, g⟩ := strip_lo (a := a) hc h0
      exact Or.inr ⟨0, e / c, o, g, by simp; field_simp, hc, Or.inr (Or.inr (Or.inr (Or.inr (Or.inl ⟨rfl, rfl, g, hc.ne'⟩))))⟩
  · have hc : 0 < c := by
      refine lt_of_le_of_ne h.c0 fun z => ?_
      have := h.cz z.symm
      rw [this.1, ← z] at h0; simp at h0
    obtain ⟨o, g⟩ := strip_hi (a := a) hc h1
    exact Or.inr ⟨1, (e + b) / c, o, g, by simp; field_simp, hc, Or.inr (Or.inr (Or.inr (Or.inr (Or.inr (Or.inl ⟨rfl, rfl, g, hc.ne'⟩)))))⟩
  · exact absurd ⟨not_le.1 h0, not_le.1 h1, h2⟩ hS
  · exact absurd ⟨not_le.1 h0, not_le.1 h1, h2⟩ hS
  · have p : 0 < a * c - b * b := by linarith
    obtain ⟨o, g0, g⟩ := strip_mid p (not_le.1 h0).le (not_le.1 h1).le
    exact Or.inr ⟨_, _, o, g, (div_mul_cancel₀ _ p.ne').symm, p, Or.inr (Or.inr (Or.inr (Or.inr (Or.inr (Or.inr (Or.inr (Or.inr ⟨rfl, g0, g, p.ne'⟩)))))))⟩

/-- The formulas. -/
noncomputable def eeFormula (ea0 ea1 eb0 eb1 : Store ℝ) : Nat → Option ℝ
  | 0 => some (distSq 3 ea0 eb0)
  | 1 => some (distSq 3 ea0 eb1)
  | 2 => line3 ea0 eb0 eb1
  | 3 => some (distSq 3 ea1 eb0)
  | 4 => some (distSq 3 ea1 eb1)
  | 5 => line3 ea1 eb0 eb1
  | 6 => line3 eb0 ea0 ea1
  | 7 => line3 eb1 ea0 ea1
  | _ => dist2Ee ea0 ea1 eb0 eb1

theorem dist2EeUnclassified_formula (tol : ℝ) (ea0 ea1 eb0 eb1 : Store ℝ) :
    dist2EeUnclassified tol ea0 ea1 eb0 eb1 = eeFormula ea0 ea1 eb0 eb1 (eeType tol ea0 ea1 eb0 eb1) := by
  unfold dist2EeUnclassified eeFormula
  have e : ∀ p a b, dist2Pe 3 p a b = line3 p a b := fun p a b => by unfold dist2Pe; simp
  split <;> simp only [dist2Pp_eq, e] <;> split <;> first | rfl | (exfalso; simp_all)

/-- The distance to a line at the foot. -/
theorem line3_foot {p e0 e1 : Store ℝ} (hn : Mat.dot 3 (sub e1 e0) (sub e1 e0) ≠ 0) {r : ℝ}
    (hr : Mat.dot 3 (sub e1 e0) (sub e1 e0) * r = Mat.dot 3 (sub e1 e0) (sub p e0)) :
    line3 p e0 e1 = some (distSq 3 p fun i => (1 - r) * e0 i + r * e1 i) := by
  rw [norm_dot] at hn hr
  rw [line3_eq p e0 e1 hn, ← seg_foot 3 p e0 e1 hn]
  have : Mat.dot 3 (sub e1 e0) (sub p e0) / Mat.l2NormSqr 3 (sub e1 e0) = r := by rw [← hr, mul_div_cancel_left₀ _ hn]
  rw [this]

theorem distSq_comm (n : Nat) (a b : Store ℝ) : distSq n a b = distSq n b a := by
  unfold distSq; exact Finset.sum_congr rfl fun i _ => by ring

theorem eeFormula_eq {ea0 ea1 eb0 eb1 : Store ℝ} {k : Nat} {s t : ℝ}
    (hp : EPart (Mat.dot 3 (sub ea1 ea0) (sub ea1 ea0)) (Mat.dot 3 (sub ea1 ea0) (sub eb1 eb0)) (Mat.dot 3 (sub eb1 eb0) (sub eb1 eb0))
      (Mat.dot 3 (sub ea1 ea0) (sub ea0 eb0)) (Mat.dot 3 (sub eb1 eb0) (sub ea0 eb0)) k s t) :
    eeFormula ea0 ea1 eb0 eb1 k = some (eeAt 3 (sub ea1 ea0) (sub eb1 eb0) (sub ea0 eb0) s t) := by
  have z0 : ∀ x y : Store ℝ, (fun i => (1 - 0) * x i + 0 * y i) = x := fun x y => by funext i; ring
  have z1 : ∀ x y : Store ℝ, (fun i => (1 - 1) * x i + 1 * y i) = y := fun x y => by funext i; ring
  rcases hp with ⟨rfl, rfl, rfl⟩ | ⟨rfl, rfl, rfl⟩ | ⟨rfl, rfl, rfl⟩ | ⟨rfl, rfl, rfl⟩ | ⟨rfl, rfl, g, hn⟩ | ⟨rfl, rfl, g, hn⟩ | ⟨rfl, rfl, g, hn⟩ | ⟨rfl, rfl, g, hn⟩ | ⟨rfl, g0, g1, hn⟩
  · rw [eeAt_distSq, z0, z0]; rfl
  · rw [eeAt_distSq, z0, z1]; rfl
  · rw [eeAt_distSq, z1, z0]; rfl
  · rw [eeAt_distSq, z1, z1]; rfl
  · rw [eeAt_distSq, z0]; simp only [eeFormula]
    exact line3_foot hn (by linarith)
  · rw [eeAt_distSq, z1]; simp only [eeFormula]
    refine line3_foot hn ?_
    have : Mat.dot 3 (sub eb1 eb0) (sub ea1 eb0) = Mat.dot 3 (sub eb1 eb0) (sub ea0 eb0) + Mat.dot 3 (sub ea1 ea0) (sub eb1 eb0) := by
      simp only [dot3, sub]; ring
    rw [this]; linarith
  · rw [eeAt_distSq, z0, distSq_comm]; simp only [eeFormula]
    refine line3_foot hn ?_
    have : Mat.dot 3 (sub ea1 ea0) (sub eb0 ea0) = -Mat.dot 3 (sub ea1 ea0) (sub ea0 eb0) := by simp only [dot3, sub]; ring
    rw [this]; linarith
  · rw [eeAt_distSq, z1, distSq_comm]; simp only [eeFormula]
    refine line3_foot hn ?_
    have : Mat.dot 3 (sub ea1 ea0) (sub eb1 ea0) = -Mat.dot 3 (sub ea1 ea0) (sub ea0 eb0) + Mat.dot 3 (sub ea1 ea0) (sub eb1 eb0) := by
      simp only [dot3, sub]; ring
    rw [this]; linarith
  · simp only [eeFormula]; unfold dist2Ee; simp only []
    have hn' : Mat.l2NormSqr 3 (Mat.cross3 (sub ea1 ea0) (sub eb1 eb0)) ≠ 0 := by rw [cross_norm]; exact hn
    rw [quot_ne hn']; congr 1
    rw [div_eq_iff hn', cross_norm, eeAt_poly]
    have e : Mat.dot 3 (sub eb0 ea0) (Mat.cross3 (sub ea1 ea0) (sub eb1 eb0)) * Mat.dot 3 (sub eb0 ea0) (Mat.cross3 (sub ea1 ea0) (sub eb1 eb0))
      = Mat.dot 3 (sub ea0 eb0) (sub ea0 eb0) * (Mat.dot 3 (sub ea1 ea0) (sub ea1 ea0) * Mat.dot 3 (sub eb1 eb0) (sub eb1 eb0)
          - Mat.dot 3 (sub ea1 ea0) (sub eb1 eb0) * Mat.dot 3 (sub ea1 ea0) (sub eb1 eb0))
        - Mat.dot 3 (sub eb1 eb0) (sub eb1 eb0) * Mat.dot 3 (sub ea1 ea0) (sub ea0 eb0) ^ 2
        - Mat.dot 3 (sub ea1 ea0) (sub ea1 ea0) * Mat.dot 3 (sub eb1 eb0) (sub ea0 eb0) ^ 2
        + 2 * Mat.dot 3 (sub ea1 ea0) (sub eb1 eb0) * Mat.dot 3 (sub ea1 ea0) (sub ea0 eb0) * Mat.dot 3 (sub eb1 eb0) (sub ea0 eb0) := by
      simp only [dot3, cross_0, cross_1, cross_2, sub]; ring
    rw [e]
    generalize Mat.dot 3 (sub ea1 ea0) (sub ea1 ea0) = a at *
    generalize Mat.dot 3 (sub ea1 ea0) (sub eb1 eb0) = b at *
    generalize Mat.dot 3 (sub eb1 eb0) (sub eb1 eb0) = c at *
    generalize Mat.dot 3 (sub ea1 ea0) (sub ea0 eb0) = d at *
    generalize Mat.dot 3 (sub eb1 eb0) (sub ea0 eb0) = f at *
    obtain rfl : d = b * t - a * s := by linarith
    obtain rfl : f = -b * s + c * t := by linarith
    ring

/-- If the lines are coplanar, the inner closest points are the same point. -/
theorem special_meet {tol : ℝ} {ea0 ea1 eb0 eb1 : Store ℝ} (hS : Special tol (sub ea1 ea0) (sub eb1 eb0) (sub ea0 eb0))
    (hX : Mat.dot 3 (Mat.cross3 (sub ea1 ea0) (sub eb1 eb0)) (sub ea0 eb0) = 0) : Meet 3 (Interior ea0 ea1) (Interior eb0 eb1) := by
  obtain ⟨h0, h1, h2, h3, -⟩ := hS
  have hD : 0 < Mat.dot 3 (sub ea1 ea0) (sub ea1 ea0) * Mat.dot 3 (sub eb1 eb0) (sub eb1 eb0)
          - Mat.dot 3 (sub ea1 ea0) (sub eb1 eb0) * Mat.dot 3 (sub ea1 ea0) (sub eb1 eb0) := h0.trans h1
  refine ⟨_, ⟨_, div_pos h0 hD, (div_lt_one hD).2 h1, rfl⟩, _, ⟨_, div_pos h2 hD, (div_lt_one hD).2 h3, rfl⟩, ?_⟩
  generalize hDD : Mat.dot 3 (sub ea1 ea0) (sub ea1 ea0) * Mat.dot 3 (sub eb1 eb0) (sub eb1 eb0)
          - Mat.dot 3 (sub ea1 ea0) (sub eb1 eb0) * Mat.dot 3 (sub ea1 ea0) (sub eb1 eb0) = D at *
  generalize hs : Mat.dot 3 (sub ea1 ea0) (sub eb1 eb0) * Mat.dot 3 (sub eb1 eb0) (sub ea0 eb0)
          - Mat.dot 3 (sub eb1 eb0) (sub eb1 eb0) * Mat.dot 3 (sub ea1 ea0) (sub ea0 eb0) = S at *
  generalize ht : Mat.dot 3 (sub ea1 ea0) (sub ea1 ea0) * Mat.dot 3 (sub eb1 eb0) (sub ea0 eb0)
          - Mat.dot 3 (sub ea1 ea0) (sub eb1 eb0) * Mat.dot 3 (sub ea1 ea0) (sub ea0 eb0) = T at *
  have key : ∀ i < 3, D * (ea0 i - eb0 i) + S * (ea1 i - ea0 i) - T * (eb1 i - eb0 i)
      = Mat.dot 3 (Mat.cross3 (sub ea1 ea0) (sub eb1 eb0)) (sub ea0 eb0) * Mat.cross3 (sub ea1 ea0) (sub eb1 eb0) i := by
    intro i hi
    rw [← hDD, ← hs, ← ht]
    interval_cases i <;> simp only [dot3, cross_0, cross_1, cross_2, sub] <;> ring
  intro i hi
  have k := key i hi
  rw [hX, zero_mul] at k
  have hD' := hD.ne'
  field_simp
  linear_combination k

end Verif.Dist
