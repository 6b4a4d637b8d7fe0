import Verif.Spec.Shapes
import Mathlib.Analysis.InnerProductSpace.PiL2
import Mathlib.Tactic.Linarith
import Mathlib.Tactic.Ring
import Mathlib.Tactic.FieldSimp
import Mathlib.Tactic.Positivity
import Mathlib.Tactic.FinCases

/-! Lengths, maxima, radial parts. -/
namespace Verif.Shapes

variable {n : ℕ}

theorem len_eq (x : V n) : len x = ‖(WithLp.toLp 2 x : EuclideanSpace ℝ (Fin n))‖ := by
  rw [EuclideanSpace.norm_eq, len]
  congr 1
  exact Finset.sum_congr rfl fun i _ => by simp [sq]

theorem len_nonneg (x : V n) : 0 ≤ len x := Real.sqrt_nonneg _

theorem len_sq (x : V n) : len x ^ 2 = ∑ i, x i * x i := Real.sq_sqrt (Finset.sum_nonneg fun i _ => mul_self_nonneg _)

theorem len_triangle (x y : V n) : len (x + y) ≤ len x + len y := by
  simp only [len_eq, WithLp.toLp_add]
  exact norm_add_le _ _

theorem len_smul (c : ℝ) (x : V n) : len (c • x) = |c| * len x := by
  rw [len_eq, len_eq, WithLp.toLp_smul, norm_smul, Real.norm_eq_abs]

theorem len_neg (x : V n) : len (-x) = len x := by simp [len]

theorem len_sub_comm (x y : V n) : len (x - y) = len (y - x) := by rw [← len_neg, neg_sub]

theorem abs_le_len (x : V n) (i : Fin n) : |x i| ≤ len x := by
  rw [← Real.sqrt_mul_self_eq_abs]
  exact Real.sqrt_le_sqrt (Finset.single_le_sum (f := fun i => x i * x i) (fun i _ => mul_self_nonneg _) (Finset.mem_univ i))

theorem len_le_len {x y : V n} (h : ∀ i, |x i| ≤ |y i|) : len x ≤ len y :=
  Real.sqrt_le_sqrt (Finset.sum_le_sum fun i _ => abs_le_abs_iff_mul_self_le (h i))
where
  abs_le_abs_iff_mul_self_le {a b : ℝ} (h : |a| ≤ |b|) : a * a ≤ b * b := by
    rw [← abs_mul_abs_self a, ← abs_mul_abs_self b]
    exact mul_self_le_mul_self (abs_nonneg _) h

theorem len_single (i : Fin n) (t : ℝ) : len (Pi.single i t : V n) = |t| := by
  rw [len, ← Real.sqrt_mul_self_eq_abs]
  congr 1
  rw [Finset.sum_eq_single i]
  · simp
  · intro j _ h; simp [Pi.single_eq_of_ne h]
  · simp

theorem len_zero : len (0 : V n) = 0 := by simp [len]

theorem len_eq_zero {x : V n} (h : len x = 0) : x = 0 := by
  funext i
  have := abs_le_len x i
  rw [h] at this
  exact abs_eq_zero.1 (le_antisymm this (abs_nonneg _))

theorem cauchy (x y : V n) : ∑ i, x i * y i ≤ len x * len y := by
  rw [len, len, ← Real.sqrt_mul (Finset.sum_nonneg fun i _ => mul_self_nonneg _)]
  refine Real.le_sqrt_of_sq_le ?_
  have := Finset.sum_mul_sq_le_sq_mul_sq Finset.univ x y
  simpa only [sq] using this

theorem maxEntry_spec (x : V (n + 1)) : (∀ i, x i ≤ maxEntry x) ∧ ∃ i, maxEntry x = x i := by
  have key : ∀ (l : List ℝ) (r : ℝ), r ≤ l.foldl (fun r v => if v > r then v else r) r ∧ (∀ v ∈ l, v ≤ l.foldl (fun r v => if v > r then v else r) r) ∧
      (l.foldl (fun r v => if v > r then v else r) r = r ∨ l.foldl (fun r v => if v > r then v else r) r ∈ l) := by
    intro l
    induction l with
    | nil => intro r; simp
    | cons a l ih =>
      intro r
      rw [List.foldl_cons]
      obtain ⟨h1, h2, h3⟩ := ih (if a > r then a else r)
      have ha : a ≤ if a > r then a else r := by split_ifs <;> linarith
      have hr : r ≤ if a > r then a else r := by split_ifs <;> linarith
      refine ⟨hr.trans h1, ?_, ?_⟩
      · intro v hv
        rcases List.mem_cons.1 hv with rfl | hv
        · exact ha.trans h1
        · exact h2 v hv
      · rcases h3 with h3 | h3
        · rw [h3]
          split_ifs
          · exact Or.inr (List.mem_cons_self ..)
          · exact Or.inl rfl
        · exact Or.inr (List.mem_cons_of_mem _ h3)
  obtain ⟨h1, h2, h3⟩ := key (List.ofFn fun i : Fin n => x i.succ) (x 0)
  constructor
  · intro i
    refine Fin.cases h1 (fun j => h2 _ ?_) i
    exact List.mem_ofFn.2 ⟨j, rfl⟩
  · rcases h3 with h3 | h3
    · exact ⟨0, h3⟩
    · obtain ⟨j, hj⟩ := List.mem_ofFn.1 h3
      exact ⟨j.succ, hj.symm⟩

/-- Radial part. -/
theorem disR_eq (c : Cylinder) (x : V 3) : c.disR x = len (Function.update (x - c.bottom) c.d 0) := by
  rw [Cylinder.disR, len]
  congr 1
  obtain ⟨b, r, l, d⟩ := c
  rw [Fin.sum_univ_three]
  simp only [Cylinder.diffR]
  fin_cases d <;> simp [List.finRange_succ, Function.update_apply]

theorem update_sub (x y : V n) (d : Fin n) : Function.update (x - y) d 0 = Function.update x d 0 - Function.update y d 0 := by
  funext i
  by_cases h : i = d
  · subst h; simp
  · simp [h]

theorem split_sq (x : V n) (d : Fin n) : len x ^ 2 = x d ^ 2 + len (Function.update x d 0) ^ 2 := by
  rw [len_sq, len_sq, ← Finset.add_sum_erase _ _ (Finset.mem_univ d), ← Finset.add_sum_erase Finset.univ (fun i => Function.update x d 0 i * Function.update x d 0 i) (Finset.mem_univ d)]
  rw [Function.update_self, mul_zero, zero_add, sq]
  congr 1
  exact Finset.sum_congr rfl fun i hi => by rw [Function.update_of_ne (Finset.ne_of_mem_erase hi)]

theorem radial_le (x : V n) (d : Fin n) : len (Function.update x d 0) ≤ len x := by
  refine len_le_len fun i => ?_
  by_cases h : i = d
  · subst h; simp
  · simp [h]

end Verif.Shapes

namespace Verif.Shapes

variable {n : ℕ}

theorem point_le {c : Cuboid n} {x y : V n} (hy : y ∈ c.set) (i : Fin n) : c.point x i ≤ |x i - y i| := by
  obtain ⟨h1, h2⟩ := hy i
  simp only at h1 h2
  simp only [Cuboid.point]
  rcases abs_cases (x i - (c.min i + c.max i) / 2) with ⟨h, _⟩ | ⟨h, _⟩ <;> rcases abs_cases (x i - y i) with ⟨h', _⟩ | ⟨h', _⟩ <;> rw [h, h'] <;> linarith

theorem point_le_iff (c : Cuboid n) (x : V n) (i : Fin n) (t : ℝ) : c.point x i ≤ t ↔ c.min i - t ≤ x i ∧ x i ≤ c.max i + t := by
  simp only [Cuboid.point]
  rw [sub_le_iff_le_add, abs_le]
  constructor <;> rintro ⟨h, h'⟩ <;> constructor <;> linarith

theorem mem_iff (c : Cuboid n) (x : V n) : x ∈ c.set ↔ ∀ i, c.point x i ≤ 0 := by
  refine forall_congr' fun i => ?_
  rw [point_le_iff]
  simp

/-- The clamped point. -/
noncomputable def near (c : Cuboid n) (x : V n) : V n := fun i => max (c.min i) (min (x i) (c.max i))

theorem near_spec {c : Cuboid n} (h : ∀ i, c.min i ≤ c.max i) (x : V n) : near c x ∈ c.set ∧ ∀ i, |x i - near c x i| = if c.point x i < 0 then 0 else c.point x i := by
  constructor
  · intro i
    exact ⟨le_max_left _ _, max_le (h i) (min_le_right _ _)⟩
  · intro i
    have hi := h i
    have hp : c.point x i = |x i - (c.min i + c.max i) / 2| - (c.max i - c.min i) / 2 := rfl
    simp only [near]
    rcases le_total (x i) (c.min i) with h1 | h1
    · rw [abs_of_nonpos (by linarith : x i - (c.min i + c.max i) / 2 ≤ 0)] at hp
      rw [min_eq_left (h1.trans hi), max_eq_left h1, abs_of_nonpos (by linarith)]
      split_ifs <;> linarith
    · rcases le_total (x i) (c.max i) with h2 | h2
      · rw [min_eq_left h2, max_eq_right h1, sub_self, abs_zero]
        split_ifs with h3
        · rfl
        · rcases abs_cases (x i - (c.min i + c.max i) / 2) with ⟨h', _⟩ | ⟨h', _⟩ <;> rw [h'] at hp <;> linarith
      · rw [abs_of_nonneg (by linarith : 0 ≤ x i - (c.min i + c.max i) / 2)] at hp
        rw [min_eq_right h2, max_eq_right hi, abs_of_nonneg (by linarith)]
        split_ifs <;> linarith

/-- Moving a point along an axis beyond a face. -/
theorem beyond (c : Cuboid n) (x : V n) (i : Fin n) {t : ℝ} (ht : -c.point x i < t) : ∃ y ∉ c.set, len (x - y) = |t| := by
  have key : ∀ s : ℝ, |s| = |t| → (x + Pi.single i s) ∉ c.set → ∃ y ∉ c.set, len (x - y) = |t| := fun s hs hy =>
    ⟨_, hy, by rw [sub_add_cancel_left, len_neg, len_single, hs]⟩
  have ha : -(c.max i - c.min i) / 2 + |x i - (c.min i + c.max i) / 2| + t > 0 := by
    simp only [Cuboid.point] at ht
    linarith
  rcases abs_cases (x i - (c.min i + c.max i) / 2) with ⟨h, _⟩ | ⟨h, _⟩ <;> rw [h] at ha
  · refine key t rfl fun hy => ?_
    have := (hy i).2
    simp only [Pi.add_apply, Pi.single_eq_same] at this
    linarith
  · refine key (-t) (abs_neg t) fun hy => ?_
    have := (hy i).1
    simp only [Pi.add_apply, Pi.single_eq_same] at this
    linarith

/-- Axial and radial coordinate relative to the bottom. -/
theorem cyl_lip (c : Cylinder) (x y : V 3) : c.disR x ≤ c.disR y + len (Function.update (x - y) c.d 0) := by
  rw [disR_eq, disR_eq]
  have : Function.update (x - c.bottom) c.d 0 = Function.update (y - c.bottom) c.d 0 + Function.update (x - y) c.d 0 := by
    funext i
    by_cases h : i = c.d
    · subst h; simp
    · simp [h]
  rw [this]
  exact len_triangle _ _

/-- The point with given axial coordinate and with the radial part scaled. -/
noncomputable def cylAt (c : Cylinder) (x : V 3) (a k : ℝ) : V 3 := fun i => if i = c.d then a else c.bottom i + k * (x i - c.bottom i)

theorem cylAt_axial (c : Cylinder) (x : V 3) (a k : ℝ) : cylAt c x a k c.d = a := by simp [cylAt]

theorem cylAt_disR (c : Cylinder) (x : V 3) (a k : ℝ) : c.disR (cylAt c x a k) = |k| * c.disR x := by
  rw [disR_eq, disR_eq, ← len_smul]
  congr 1
  funext i
  by_cases h : i = c.d
  · subst h; simp
  · simp [h, cylAt]

theorem cylAt_dist (c : Cylinder) (x : V 3) (a k : ℝ) : len (x - cylAt c x a k) = Real.sqrt ((x c.d - a) ^ 2 + ((1 - k) * c.disR x) ^ 2) := by
  rw [← Real.sqrt_sq (len_nonneg (x - cylAt c x a k)), split_sq _ c.d]
  congr 2
  · simp [cylAt]
  · have : Function.update (x - cylAt c x a k) c.d 0 = (1 - k) • Function.update (x - c.bottom) c.d 0 := by
      funext i
      by_cases h : i = c.d
      · subst h; simp
      · simp [h, cylAt]; ring
    rw [this, len_smul, disR_eq, mul_pow, mul_pow, sq_abs]

theorem sqrt_le_len (c : Cylinder) (x y : V 3) {a r : ℝ} (ha : 0 ≤ a) (hr : 0 ≤ r) (h1 : a ≤ |x c.d - y c.d|) (h2 : r ≤ len (Function.update (x - y) c.d 0)) :
    Real.sqrt (r * r + a * a) ≤ len (x - y) := by
  rw [Real.sqrt_le_left (len_nonneg _), split_sq _ c.d, Pi.sub_apply, ← sq_abs (x c.d - y c.d)]
  nlinarith [mul_self_le_mul_self ha h1, mul_self_le_mul_self hr h2]

end Verif.Shapes
