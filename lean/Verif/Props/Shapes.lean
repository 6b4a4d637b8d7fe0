import Verif.Proof.Shapes
import Mathlib.Analysis.SpecialFunctions.Sqrt
import Mathlib.Analysis.Calculus.Deriv.Add
import Mathlib.Analysis.Calculus.Deriv.Mul
import Mathlib.Tactic.NormNum

/-!
# The analytic shapes are what they say

The function of every shape is the signed distance to a set written down independently, and the boxes are the smallest around these sets.
-/
namespace Verif.Shapes

variable {n : ℕ}

/-- There is only one signed distance to a set. -/
theorem signed_unique {s : Set (V n)} {f g : V n → ℝ} (hf : SignedDistance s f) (hg : SignedDistance s g) : f = g := by
  have key : ∀ {f g : V n → ℝ}, SignedDistance s f → SignedDistance s g → ∀ x, f x ≤ g x := by
    intro f g hf hg x
    by_cases hx : x ∈ s
    · obtain ⟨_, _, h3⟩ := (hf x).2 hx
      obtain ⟨_, g2, _⟩ := (hg x).2 hx
      by_contra h
      obtain ⟨y, hy, hl⟩ := h3 (f x - g x) (by linarith)
      exact hy (g2 y (by linarith))
    · obtain ⟨_, h2, _⟩ := (hf x).1 hx
      obtain ⟨_, _, y, hy, hl⟩ := (hg x).1 hx
      rw [← hl]
      exact h2 y hy
  exact funext fun x => le_antisymm (key hf hg x) (key hg hf x)

/-! ## Plane -/

/-- With a unit normal, the half-space behind the plane. -/
theorem plane_signed (p : Plane n) (hn : len p.normal = 1) : SignedDistance p.set p.sd := by
  have sd_eq : ∀ x, p.sd x = ∑ i, p.normal i * x i - ∑ i, p.normal i * p.origin i := fun x => by
    simp only [Plane.sd, mul_sub, Finset.sum_sub_distrib]
  have hnn : ∑ i, p.normal i * p.normal i = 1 := by rw [← len_sq, hn, one_pow]
  have move : ∀ x t, p.sd (x + t • p.normal) = p.sd x + t := fun x t => by
    rw [sd_eq, sd_eq]
    have : ∑ i, p.normal i * (x + t • p.normal) i = ∑ i, p.normal i * x i + t * ∑ i, p.normal i * p.normal i := by
      rw [Finset.mul_sum, ← Finset.sum_add_distrib]
      exact Finset.sum_congr rfl fun i _ => by simp only [Pi.add_apply, Pi.smul_apply, smul_eq_mul]; ring
    rw [this, hnn]; ring
  have mem : ∀ x, x ∈ p.set ↔ p.sd x ≤ 0 := fun x => by rw [sd_eq, sub_nonpos]; rfl
  have lip : ∀ x y, p.sd x ≤ p.sd y + len (x - y) := fun x y => by
    have h := cauchy p.normal (x - y)
    rw [hn, one_mul] at h
    simp only [Pi.sub_apply, mul_sub, Finset.sum_sub_distrib] at h
    rw [sd_eq, sd_eq]; linarith
  have dist : ∀ (x : V n) t, len (x - (x + t • p.normal)) = |t| := fun x t => by
    rw [sub_add_cancel_left, len_neg, len_smul, hn, mul_one]
  intro x
  constructor
  · intro hx
    rw [mem, not_le] at hx
    refine ⟨hx, fun y hy => ?_, x + (-p.sd x) • p.normal, ?_, ?_⟩
    · have := lip x y
      have := (mem y).1 hy
      linarith
    · rw [mem, move]; linarith
    · rw [dist, abs_neg, abs_of_pos hx]
  · intro hx
    rw [mem] at hx
    refine ⟨hx, fun y hy => ?_, fun e he => ⟨x + (-p.sd x + e / 2) • p.normal, ?_, ?_⟩⟩
    · rw [mem]
      have := lip y x
      rw [len_sub_comm] at this
      linarith
    · rw [mem, move]; linarith
    · rw [dist, abs_of_pos (by linarith)]; linarith

/-- The box of a plane is only its origin. -/
theorem plane_box_violated : ∃ p : Plane 2, len p.normal = 1 ∧ ¬ p.set ⊆ boxSet p.box := by
  refine ⟨⟨0, ![1, 0]⟩, ?_, fun h => ?_⟩
  · simp [len]
  · have := (h (show (![-1, 0] : V 2) ∈ _ by simp [Plane.set]) 0).1
    simp [Plane.box] at this
    linarith

/-! ## Cuboid -/

/-- Every box that is not empty, in every dimension. -/
theorem cuboid_signed (c : Cuboid (n + 1)) (h : ∀ i, c.min i ≤ c.max i) : SignedDistance c.set c.sd := by
  intro x
  obtain ⟨hle, j, hj⟩ := maxEntry_spec (c.point x)
  constructor
  · intro hx
    have hm : 0 < maxEntry (c.point x) := by
      by_contra hm
      exact hx ((mem_iff c x).2 fun i => (hle i).trans (not_lt.1 hm))
    have hs : c.sd x = len fun i => if c.point x i < 0 then 0 else c.point x i := by
      simp only [Cuboid.sd]; rw [if_neg (not_lt.2 hm.le), zero_add]
    have habs : ∀ i, |if c.point x i < 0 then 0 else c.point x i| = if c.point x i < 0 then 0 else c.point x i := fun i => by
      split_ifs with hi
      · exact abs_zero
      · exact abs_of_nonneg (not_lt.1 hi)
    rw [hs]
    refine ⟨?_, fun y hy => len_le_len fun i => ?_, near c x, (near_spec h x).1, ?_⟩
    · refine lt_of_lt_of_le ?_ (abs_le_len _ j)
      rw [habs, ← hj, if_neg (not_lt.2 hm.le)]
      exact hm
    · rw [habs, Pi.sub_apply]
      split_ifs
      · exact abs_nonneg _
      · exact point_le hy i
    · refine le_antisymm (len_le_len fun i => ?_) (len_le_len fun i => ?_) <;> rw [habs, Pi.sub_apply, (near_spec h x).2]
  · intro hx
    have hp := (mem_iff c x).1 hx
    have hs : c.sd x = maxEntry (c.point x) := by
      have : (fun i => if c.point x i < 0 then 0 else c.point x i) = (0 : V (n + 1)) := funext fun i => by
        split_ifs with hi
        · rfl
        · exact le_antisymm (hp i) (not_lt.1 hi)
      simp only [Cuboid.sd]
      rw [this, len_zero, add_zero]
      split_ifs with hm
      · rfl
      · exact le_antisymm (not_lt.1 hm) (hj ▸ hp j)
    rw [hs]
    refine ⟨hj ▸ hp j, fun y hy i => ?_, fun e he => ?_⟩
    · have h1 := (point_le_iff c x i _).1 (hle i)
      have h2 := (abs_le_len (x - y) i).trans hy.le
      rw [Pi.sub_apply, abs_le] at h2
      exact ⟨by linarith [h1.1], by linarith [h1.2]⟩
    · obtain ⟨y, hy, hl⟩ := beyond c x j (t := -maxEntry (c.point x) + e / 2) (by rw [hj]; linarith)
      refine ⟨y, hy, ?_⟩
      rw [hl, abs_of_pos (by have := hp j; rw [hj]; linarith)]
      linarith

/-- The free function computes the same number. -/
theorem cuboid_distance (c : Cuboid (n + 1)) (x : V (n + 1)) : c.distance x = c.sd x := by
  have key : ∀ (l : List ℝ) (r : ℝ), l.foldl (fun (m : WithBot ℝ) (v : ℝ) => if (v : WithBot ℝ) > m then (v : WithBot ℝ) else m) (r : WithBot ℝ) =
      ((l.foldl (fun r v => if v > r then v else r) r : ℝ) : WithBot ℝ) := by
    intro l
    induction l with
    | nil => intro r; rfl
    | cons a l ih =>
      intro r
      rw [List.foldl_cons, List.foldl_cons, ← ih]
      congr 1
      simp only [gt_iff_lt, WithBot.coe_lt_coe]
      split_ifs <;> rfl
  have hm : (List.ofFn (c.point x)).foldl (fun (m : WithBot ℝ) (v : ℝ) => if (v : WithBot ℝ) > m then (v : WithBot ℝ) else m) ⊥ = ((maxEntry (c.point x) : ℝ) : WithBot ℝ) := by
    rw [List.ofFn_succ, List.foldl_cons, if_pos (WithBot.bot_lt_coe _), key]
    rfl
  simp only [Cuboid.distance, Cuboid.sd]
  rw [hm, WithBot.unbotD_coe]
  congr 1
  have : ((maxEntry (c.point x) : ℝ) : WithBot ℝ) < 0 ↔ maxEntry (c.point x) < 0 := by
    rw [← WithBot.coe_zero, WithBot.coe_lt_coe]
  simp only [this]

theorem cuboid_box (c : Cuboid n) : Bounding c.set (c.min, c.max) := ⟨fun _ h => h, fun _ h => h⟩

/-- The cube of a centre and a side. -/
theorem cuboid_ofCenter (m x : V n) (l : ℝ) : x ∈ (Cuboid.ofCenter m l).set ↔ ∀ i, |x i - m i| ≤ l / 2 := by
  refine forall_congr' fun i => ?_
  simp only [Cuboid.ofCenter]
  rw [abs_le]
  constructor <;> rintro ⟨h, h'⟩ <;> constructor <;> linarith

/-- The vertices are in the box, and every linear function is largest at one of them. -/
theorem cuboid_vert (c : Cuboid n) (h : ∀ i, c.min i ≤ c.max i) : c.vert 0 = c.min ∧ c.vert 1 = c.max ∧ (∀ is, c.vert is ∈ c.set) ∧
    ∀ w : V n, ∃ is : Fin n → ℤ, (∀ i, is i = 0 ∨ is i = 1) ∧ ∀ x ∈ c.set, ∑ i, w i * x i ≤ ∑ i, w i * c.vert is i := by
  refine ⟨funext fun i => if_pos rfl, funext fun i => if_neg one_ne_zero, ?_, ?_⟩
  · intro is i
    simp only [Cuboid.vert]
    split_ifs
    · exact ⟨le_rfl, h i⟩
    · exact ⟨h i, le_rfl⟩
  · intro w
    refine ⟨fun i => if w i < 0 then 0 else 1, fun i => ?_, fun x hx => Finset.sum_le_sum fun i _ => ?_⟩
    · dsimp only; split_ifs <;> simp
    · obtain ⟨h1, h2⟩ := hx i
      simp only [Cuboid.vert] at *
      by_cases hw : w i < 0
      · simp only [hw, if_true]
        exact mul_le_mul_of_nonpos_left h1 hw.le
      · simp only [hw, if_false, one_ne_zero]
        exact mul_le_mul_of_nonneg_left h2 (not_lt.1 hw)

/-! ## Sphere -/

theorem sphere_signed (s : Sphere (n + 1)) (hr : 0 ≤ s.radius) : SignedDistance s.set s.sd := by
  have sd_eq : ∀ x, s.sd x = len (x - s.center) - s.radius := fun x => rfl
  intro x
  constructor
  · intro hx
    have hx' : s.radius < len (x - s.center) := not_le.1 hx
    have hl : 0 < len (x - s.center) := hr.trans_lt hx'
    rw [sd_eq]
    refine ⟨by linarith, fun y hy => ?_, s.center + (s.radius / len (x - s.center)) • (x - s.center), ?_, ?_⟩
    · have h1 : len (y - s.center) ≤ s.radius := hy
      have h2 := len_triangle (x - y) (y - s.center)
      rw [sub_add_sub_cancel] at h2
      linarith
    · change len _ ≤ _
      rw [add_sub_cancel_left, len_smul, abs_of_nonneg (by positivity), div_mul_cancel₀ _ hl.ne']
    · have : x - (s.center + (s.radius / len (x - s.center)) • (x - s.center)) = (1 - s.radius / len (x - s.center)) • (x - s.center) := by
        rw [sub_smul, one_smul]; abel
      rw [this, len_smul, abs_of_nonneg (by rw [sub_nonneg, div_le_one hl]; exact hx'.le), sub_mul, div_mul_cancel₀ _ hl.ne', one_mul]
  · intro hx
    have hx' : len (x - s.center) ≤ s.radius := hx
    rw [sd_eq]
    refine ⟨by linarith, fun y hy => ?_, fun e he => ?_⟩
    · change len _ ≤ _
      have h2 := len_triangle (y - x) (x - s.center)
      rw [sub_add_sub_cancel, len_sub_comm y x] at h2
      linarith
    · -- a unit vector along which the distance from the centre grows
      obtain ⟨u, hu, hd⟩ : ∃ u : V (n + 1), len u = 1 ∧ x - s.center = len (x - s.center) • u := by
        by_cases h0 : len (x - s.center) = 0
        · exact ⟨Pi.single 0 1, by rw [len_single, abs_one], by rw [h0, zero_smul, len_eq_zero h0]⟩
        · refine ⟨(1 / len (x - s.center)) • (x - s.center), ?_, ?_⟩
          · rw [len_smul, abs_of_nonneg (by have := len_nonneg (x - s.center); positivity), one_div, inv_mul_cancel₀ h0]
          · rw [smul_smul, mul_one_div, div_self h0, one_smul]
      set t := s.radius - len (x - s.center) + e / 2 with ht
      refine ⟨x + t • u, fun hy => ?_, ?_⟩
      · have hy' : len (x + t • u - s.center) ≤ s.radius := hy
        have : x + t • u - s.center = (len (x - s.center) + t) • u := by
          rw [add_smul (len (x - s.center)) t u, ← hd]; abel
        rw [this, len_smul, hu, mul_one, ht] at hy'
        have := le_abs_self (len (x - s.center) + (s.radius - len (x - s.center) + e / 2))
        linarith
      · rw [sub_add_cancel_left, len_neg, len_smul, hu, mul_one, abs_of_pos (by rw [ht]; linarith)]
        linarith

/-- The normal is a unit vector and points away from the centre, except very near the centre where it is zero. -/
theorem sphere_normal (s : Sphere n) (x : V n) :
    (len (x - s.center) ^ 2 < 1e-7 → s.normal x = 0) ∧
      (1e-7 ≤ len (x - s.center) ^ 2 → len (s.normal x) = 1 ∧ x - s.center = len (x - s.center) • s.normal x) := by
  rw [len_sq]
  constructor
  · intro h
    exact if_pos h
  · intro h
    have hl : 0 < len (x - s.center) := by
      refine lt_of_le_of_ne (len_nonneg _) fun h0 => ?_
      have := len_sq (x - s.center)
      rw [← h0] at this
      rw [← this] at h
      norm_num at h
    have hn : s.normal x = (len (x - s.center))⁻¹ • (x - s.center) := by
      refine Eq.trans (if_neg (not_lt.2 h)) ?_
      funext i
      simp only [Pi.smul_apply, Pi.sub_apply, smul_eq_mul]
      rw [div_eq_inv_mul]
      rfl
    rw [hn]
    refine ⟨?_, ?_⟩
    · rw [len_smul, abs_of_pos (inv_pos.2 hl), inv_mul_cancel₀ hl.ne']
    · rw [smul_smul, mul_inv_cancel₀ hl.ne', one_smul]

/-- It is the gradient of the distance. -/
theorem sphere_gradient (s : Sphere n) (x u : V n) (h : 1e-7 ≤ len (x - s.center) ^ 2) :
    HasDerivAt (fun t : ℝ => s.sd (x + t • u)) (∑ i, s.normal x i * u i) 0 := by
  have hq : 0 < ∑ i, (x i - s.center i) * (x i - s.center i) := by
    rw [len_sq] at h
    exact lt_of_lt_of_le (by norm_num) h
  have hd : HasDerivAt (fun t : ℝ => ∑ i, ((x + t • u) i - s.center i) * ((x + t • u) i - s.center i)) (∑ i, 2 * (x i - s.center i) * u i) 0 := by
    refine HasDerivAt.fun_sum fun i _ => ?_
    have h1 : HasDerivAt (fun t : ℝ => (x + t • u) i - s.center i) (u i) 0 := by
      simp only [Pi.add_apply, Pi.smul_apply, smul_eq_mul]
      simpa using (((hasDerivAt_id (0 : ℝ)).mul_const (u i)).const_add (x i)).sub_const (s.center i)
    refine (h1.mul h1).congr_deriv ?_
    simp
    ring
  have := (hd.sqrt (by simpa using hq.ne')).sub_const s.radius
  refine HasDerivAt.congr_deriv this ?_
  rw [len_sq] at h
  rw [show s.normal x = fun i => (x i - s.center i) / len (fun i => x i - s.center i) from if_neg (not_lt.2 h)]
  simp only [zero_smul, add_zero]
  rw [Finset.sum_div]
  refine Finset.sum_congr rfl fun i _ => ?_
  have hl : Real.sqrt (∑ i, (x i - s.center i) * (x i - s.center i)) ≠ 0 := (Real.sqrt_pos.2 hq).ne'
  simp only [len]
  field_simp

theorem sphere_box (s : Sphere n) (hr : 0 ≤ s.radius) : Bounding s.set s.box := by
  constructor
  · intro x hx i
    have h1 : len (x - s.center) ≤ s.radius := hx
    have h2 := abs_le.1 ((abs_le_len (x - s.center) i).trans h1)
    simp only [Pi.sub_apply] at h2
    simp only [Sphere.box]
    exact ⟨by linarith [h2.1], by linarith [h2.2]⟩
  · intro c hc y hy i
    have hs : ∀ t, |t| ≤ s.radius → s.center + Pi.single i t ∈ s.set := fun t ht => by
      change len _ ≤ _
      rw [add_sub_cancel_left, len_single]
      exact ht
    have h1 := (hc (hs (-s.radius) (by rw [abs_neg, abs_of_nonneg hr])) i).1
    have h2 := (hc (hs s.radius (by rw [abs_of_nonneg hr])) i).2
    simp only [Pi.add_apply, Pi.single_eq_same] at h1 h2
    have h3 := hy i
    simp only [Sphere.box] at h3
    exact ⟨by linarith [h3.1], by linarith [h3.2]⟩

/-! ## Cylinder -/

theorem cylinder_signed (c : Cylinder) (hr : 0 ≤ c.radius) (hl : 0 ≤ c.length) : SignedDistance c.set c.sd := by
  have mem : ∀ x, x ∈ c.set ↔ c.bottom c.d ≤ x c.d ∧ x c.d ≤ c.bottom c.d + c.length ∧ c.disR x ≤ c.radius := fun x => by
    rw [disR_eq]; rfl
  have nn : ∀ x, 0 ≤ c.disR x := fun x => Real.sqrt_nonneg _
  intro x
  have ax : ∀ y, |x c.d - y c.d| ≤ len (x - y) := fun y => abs_le_len (x - y) c.d
  have rad : ∀ y, len (Function.update (x - y) c.d 0) ≤ len (x - y) := fun y => radial_le _ _
  -- radial distance to a point of the set
  have far : ∀ y ∈ c.set, c.disR x - c.radius ≤ len (Function.update (x - y) c.d 0) := fun y hy => by
    have := cyl_lip c x y
    have := ((mem y).1 hy).2.2
    linarith
  -- the nearest point
  have scale : c.radius < c.disR x → |c.radius / c.disR x| * c.disR x = c.radius ∧ (1 - c.radius / c.disR x) * c.disR x = c.disR x - c.radius := fun h => by
    have h0 : 0 < c.disR x := hr.trans_lt h
    rw [abs_of_nonneg (by positivity), sub_mul, div_mul_cancel₀ _ h0.ne', one_mul]
    exact ⟨rfl, rfl⟩
  constructor
  · intro hx
    simp only [Cylinder.sd]
    by_cases h1 : x c.d < c.bottom c.d
    · have ha : ∀ y ∈ c.set, c.bottom c.d - x c.d ≤ |x c.d - y c.d| := fun y hy => by
        have := ((mem y).1 hy).1
        rw [abs_sub_comm]
        exact le_trans (by linarith) (le_abs_self _)
      rw [if_pos h1]
      split_ifs with h2
      · refine ⟨Real.sqrt_pos.2 (by nlinarith [mul_self_nonneg (c.disR x - c.radius), mul_pos (sub_pos.2 h1) (sub_pos.2 h1)]), fun y hy => sqrt_le_len c x y (by linarith) (by linarith) (ha y hy) (far y hy), cylAt c x (c.bottom c.d) (c.radius / c.disR x), ?_, ?_⟩
        · rw [mem, cylAt_axial, cylAt_disR, (scale h2).1]
          exact ⟨le_rfl, by linarith, le_rfl⟩
        · rw [cylAt_dist, (scale h2).2]
          congr 1; ring
      · refine ⟨by linarith, fun y hy => (ha y hy).trans (ax y), cylAt c x (c.bottom c.d) 1, ?_, ?_⟩
        · rw [mem, cylAt_axial, cylAt_disR, abs_one, one_mul]
          exact ⟨le_rfl, by linarith, not_lt.1 h2⟩
        · rw [cylAt_dist, sub_self, zero_mul, zero_pow two_ne_zero, add_zero, Real.sqrt_sq_eq_abs, abs_of_neg (by linarith)]
          ring
    · rw [if_neg h1]
      by_cases h1' : x c.d > c.bottom c.d + c.length
      · have ha : ∀ y ∈ c.set, x c.d - (c.bottom c.d + c.length) ≤ |x c.d - y c.d| := fun y hy => by
          have := ((mem y).1 hy).2.1
          exact le_trans (by linarith) (le_abs_self _)
        rw [if_pos h1']
        split_ifs with h2
        · refine ⟨Real.sqrt_pos.2 (by nlinarith [mul_self_nonneg (c.disR x - c.radius), mul_pos (sub_pos.2 h1') (sub_pos.2 h1')]), fun y hy => sqrt_le_len c x y (by linarith) (by linarith) (ha y hy) (far y hy), cylAt c x (c.bottom c.d + c.length) (c.radius / c.disR x), ?_, ?_⟩
          · rw [mem, cylAt_axial, cylAt_disR, (scale h2).1]
            exact ⟨by linarith, le_rfl, le_rfl⟩
          · rw [cylAt_dist, (scale h2).2]
            congr 1; ring
        · refine ⟨by linarith, fun y hy => (ha y hy).trans (ax y), cylAt c x (c.bottom c.d + c.length) 1, ?_, ?_⟩
          · rw [mem, cylAt_axial, cylAt_disR, abs_one, one_mul]
            exact ⟨by linarith, le_rfl, not_lt.1 h2⟩
          · rw [cylAt_dist, sub_self, zero_mul, zero_pow two_ne_zero, add_zero, Real.sqrt_sq_eq_abs, abs_of_pos (by linarith)]
      · have h2 : c.disR x > c.radius := by
          by_contra h2
          exact hx ((mem x).2 ⟨not_lt.1 h1, not_lt.1 h1', not_lt.1 h2⟩)
        rw [if_neg h1', if_pos h2]
        refine ⟨by linarith, fun y hy => (far y hy).trans (rad y), cylAt c x (x c.d) (c.radius / c.disR x), ?_, ?_⟩
        · rw [mem, cylAt_axial, cylAt_disR, (scale h2).1]
          exact ⟨not_lt.1 h1, not_lt.1 h1', le_rfl⟩
        · rw [cylAt_dist, (scale h2).2, sub_self, zero_pow two_ne_zero, zero_add, Real.sqrt_sq (by linarith)]
  · intro hx
    obtain ⟨h1, h2, h3⟩ := (mem x).1 hx
    have hs : c.sd x = -min (min (c.bottom c.d + c.length - x c.d) (x c.d - c.bottom c.d)) (c.radius - c.disR x) := by
      simp only [Cylinder.sd]
      rw [if_neg (not_lt.2 h1), if_neg (not_lt.2 h2), if_neg (not_lt.2 h3)]
    set m := min (min (c.bottom c.d + c.length - x c.d) (x c.d - c.bottom c.d)) (c.radius - c.disR x) with hm
    have m0 : 0 ≤ m := le_min (le_min (by linarith) (by linarith)) (by linarith)
    have m1 : m ≤ c.bottom c.d + c.length - x c.d := (min_le_left _ _).trans (min_le_left _ _)
    have m2 : m ≤ x c.d - c.bottom c.d := (min_le_left _ _).trans (min_le_right _ _)
    have m3 : m ≤ c.radius - c.disR x := min_le_right _ _
    rw [hs, neg_neg]
    refine ⟨by linarith, fun y hy => ?_, fun e he => ?_⟩
    · have h4 := abs_lt.1 ((ax y).trans_lt hy)
      have h5 := (rad y).trans_lt hy
      have h6 := cyl_lip c y x
      rw [show Function.update (y - x) c.d 0 = -Function.update (x - y) c.d 0 by
        funext i
        by_cases h : i = c.d
        · subst h; simp
        · simp [h], len_neg] at h6
      exact (mem y).2 ⟨by linarith [h4.2], by linarith [h4.1], by linarith⟩
    · -- along the axis
      have axis : ∀ s, |s| = m + e / 2 → x + Pi.single c.d s ∉ c.set → ∃ y ∉ c.set, len (x - y) < m + e := fun s hs hy =>
        ⟨_, hy, by rw [sub_add_cancel_left, len_neg, len_single, hs]; linarith⟩
      rcases min_choice (min (c.bottom c.d + c.length - x c.d) (x c.d - c.bottom c.d)) (c.radius - c.disR x) with h | h
      · rcases min_choice (c.bottom c.d + c.length - x c.d) (x c.d - c.bottom c.d) with h' | h'
        · have hm' : m = c.bottom c.d + c.length - x c.d := by rw [hm, h, h']
          refine axis (m + e / 2) (abs_of_nonneg (by linarith)) fun hy => ?_
          have := ((mem _).1 hy).2.1
          rw [Pi.add_apply, Pi.single_eq_same] at this
          linarith
        · have hm' : m = x c.d - c.bottom c.d := by rw [hm, h, h']
          refine axis (-(m + e / 2)) (by rw [abs_neg, abs_of_nonneg (by linarith)]) fun hy => ?_
          have := ((mem _).1 hy).1
          rw [Pi.add_apply, Pi.single_eq_same] at this
          linarith
      · have hm' : m = c.radius - c.disR x := by rw [hm, h]
        by_cases h0 : c.disR x = 0
        · -- on the axis any radial direction will do
          obtain ⟨j, hj⟩ : ∃ j : Fin 3, j ≠ c.d := exists_ne c.d
          refine ⟨x + Pi.single j (m + e / 2), fun hy => ?_, ?_⟩
          · have h4 := ((mem _).1 hy).2.2
            rw [disR_eq] at h4 h0
            have h5 := congrFun (len_eq_zero h0) j
            have h6 := (abs_le_len _ j).trans h4
            rw [Function.update_of_ne hj] at h5 h6
            simp only [Pi.sub_apply, Pi.add_apply, Pi.single_eq_same, Pi.zero_apply] at h5 h6
            rw [← disR_eq] at h0
            have := le_abs_self (x j + (m + e / 2) - c.bottom j)
            linarith
          · rw [sub_add_cancel_left, len_neg, len_single, abs_of_nonneg (by linarith)]
            linarith
        · have h00 : 0 < c.disR x := lt_of_le_of_ne (nn x) (Ne.symm h0)
          refine ⟨cylAt c x (x c.d) (1 + (m + e / 2) / c.disR x), fun hy => ?_, ?_⟩
          · have h4 := ((mem _).1 hy).2.2
            rw [cylAt_disR, abs_of_nonneg (by positivity), add_mul, div_mul_cancel₀ _ h0, one_mul] at h4
            linarith
          · rw [cylAt_dist, sub_self, zero_pow two_ne_zero, zero_add, Real.sqrt_sq_eq_abs, sub_add_cancel_left, neg_mul, div_mul_cancel₀ _ h0, abs_neg, abs_of_nonneg (by linarith)]
            linarith

theorem cylinder_box (c : Cylinder) (hr : 0 ≤ c.radius) (hl : 0 ≤ c.length) : Bounding c.set c.box := by
  constructor
  · rintro x ⟨h1, h2, h3⟩ i
    by_cases hi : i = c.d
    · subst hi
      simp only [Cylinder.box, Function.update_self]
      exact ⟨by linarith, by linarith⟩
    · have h4 := abs_le.1 ((abs_le_len _ i).trans h3)
      rw [Function.update_of_ne hi, Pi.sub_apply] at h4
      simp only [Cylinder.box, Function.update_of_ne hi, Pi.zero_apply]
      exact ⟨by linarith [h4.1], by linarith [h4.2]⟩
  · intro b hb y hy i
    have hy' := hy i
    by_cases hi : i = c.d
    · subst hi
      have hs : ∀ t, 0 ≤ t → t ≤ c.length → c.bottom + Pi.single c.d t ∈ c.set := fun t h1 h2 => by
        refine ⟨by simpa using h1, by simpa using h2, ?_⟩
        rw [add_sub_cancel_left, show Function.update (Pi.single c.d t : V 3) c.d 0 = 0 by
          funext j
          by_cases h : j = c.d
          · subst h; simp
          · simp [h], len_zero]
        exact hr
      have h1 := (hb (hs 0 le_rfl hl) c.d).1
      have h2 := (hb (hs c.length hl le_rfl) c.d).2
      simp only [Pi.add_apply, Pi.single_eq_same] at h1 h2
      simp only [Cylinder.box, Function.update_self] at hy'
      exact ⟨by linarith [hy'.1], by linarith [hy'.2]⟩
    · have hs : ∀ t, |t| ≤ c.radius → c.bottom + Pi.single i t ∈ c.set := fun t ht => by
        refine ⟨by simp [Ne.symm hi], by simpa [Ne.symm hi] using hl, ?_⟩
        rw [add_sub_cancel_left]
        exact (radial_le _ _).trans (by rw [len_single]; exact ht)
      have h1 := (hb (hs (-c.radius) (by rw [abs_neg, abs_of_nonneg hr])) i).1
      have h2 := (hb (hs c.radius (by rw [abs_of_nonneg hr])) i).2
      simp only [Pi.add_apply, Pi.single_eq_same] at h1 h2
      simp only [Cylinder.box, Function.update_of_ne hi, Pi.zero_apply] at hy'
      exact ⟨by linarith [hy'.1], by linarith [hy'.2]⟩

example : SignedDistance (Cylinder.set ⟨![0, 0, 1], 2, 3, 1⟩) (Cylinder.sd ⟨![0, 0, 1], 2, 3, 1⟩) := cylinder_signed _ (by norm_num) (by norm_num)

/-! ## The coordinate in a bounding box -/

/-- The coordinate is in the unit box, the corners go to its corners, and inside the box it is the relative position. -/
theorem uniform_coord (b : V n × V n) (h : ∀ i, b.1 i < b.2 i) (x : V n) (i : Fin n) :
    0 ≤ uniformCoord b x i ∧ uniformCoord b x i ≤ 1 ∧ (x ∈ boxSet b → x i = b.1 i + uniformCoord b x i * (b.2 i - b.1 i)) ∧
      (x i ≤ b.1 i → uniformCoord b x i = 0) ∧ (b.2 i ≤ x i → uniformCoord b x i = 1) := by
  have hl : 0 < b.2 i - b.1 i := sub_pos.2 (h i)
  simp only [uniformCoord]
  refine ⟨div_nonneg ?_ hl.le, (div_le_one hl).2 ?_, fun hx => ?_, fun hx => ?_, fun hx => ?_⟩
  · split_ifs <;> linarith
  · split_ifs <;> linarith
  · obtain ⟨h1, h2⟩ := hx i
    rw [div_mul_cancel₀ _ hl.ne', if_neg (by linarith), if_neg (by linarith)]
    ring
  · rw [div_eq_zero_iff]
    left
    split_ifs <;> linarith
  · rw [div_eq_one_iff_eq hl.ne']
    split_ifs <;> linarith

example : SignedDistance (Cuboid.set ⟨![0, 0], ![1, 2]⟩) (Cuboid.sd ⟨![0, 0], ![1, 2]⟩) :=
  cuboid_signed _ (by intro i; fin_cases i <;> simp)

example : SignedDistance (Plane.set ⟨![1, 1], ![0, 1]⟩) (Plane.sd ⟨![1, 1], ![0, 1]⟩) := plane_signed _ (by simp [len])

end Verif.Shapes
