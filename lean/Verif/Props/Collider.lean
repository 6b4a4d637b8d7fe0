import Verif.Proof.Collider
import Mathlib.Analysis.Calculus.Deriv.Add
import Mathlib.Analysis.Calculus.Deriv.Mul
import Mathlib.Tactic.NormNum

/-!
# Colliders

An object placed in space by scale, rotation and translation: who is inside, how fast it moves there, and what a contact makes of a velocity.
-/
namespace Verif.Collider
open Verif.Shapes Matrix

variable {n : ℕ}

/-- Inside are exactly the places of the material points with negative distance. -/
theorem inside_iff (c : Collider n) (hR : c.Rᵀ * c.R = 1) (hs : c.s ≠ 0) (x : V n) :
    c.Inside x ↔ ∃ X, place c.s c.R c.b X = x ∧ c.sd X < 0 := by
  constructor
  · intro h
    exact ⟨c.mat x, place_mat hR hs x, h⟩
  · rintro ⟨X, rfl, h⟩
    change c.sd (c.mat _) < 0
    rw [mat_place hR hs]
    exact h

/-- The velocity is that of the material point there: the derivative of its place. -/
theorem velocity_is (c : Collider n) (hR : c.Rᵀ * c.R = 1) (hs : c.s ≠ 0) (s : ℝ → ℝ) (R : ℝ → Matrix (Fin n) (Fin n) ℝ) (b X : ℝ → V n) (t : ℝ)
    (h0 : s t = c.s ∧ R t = c.R ∧ b t = c.b) (hs' : HasDerivAt s c.dsdt t) (hb' : ∀ i, HasDerivAt (fun t => b t i) (c.dbdt i) t)
    (hX' : ∀ i, HasDerivAt (fun t => X t i) (c.vel (X t) i) t) (W : Matrix (Fin n) (Fin n) ℝ) (hW : ∀ y, c.cross y = W *ᵥ y)
    (hR' : ∀ i j, HasDerivAt (fun t => R t i j) ((W * c.R) i j) t) (i : Fin n) :
    HasDerivAt (fun t => place (s t) (R t) (b t) (X t) i) (c.getVelocity (place c.s c.R c.b (X t)) i) t := by
  obtain ⟨hs0, hR0, hb0⟩ := h0
  have hprod : HasDerivAt (fun t => ∑ j, R t i j * X t j) (∑ j, ((W * c.R) i j * X t j + R t i j * c.vel (X t) j)) t :=
    HasDerivAt.fun_sum fun j _ => (hR' i j).mul (hX' j)
  have h := (hs'.mul hprod).add (hb' i)
  have hv : c.getVelocity (place c.s c.R c.b (X t)) i = c.dsdt * (∑ j, R t i j * X t j) + s t * (∑ j, ((W * c.R) i j * X t j + R t i j * c.vel (X t) j)) + c.dbdt i := by
    rw [Collider.getVelocity, mat_place hR hs, hW, place, add_sub_cancel_right, Matrix.mulVec_smul, Matrix.mulVec_mulVec, smul_smul, Matrix.smul_mulVec]
    simp only [Pi.add_apply, Pi.smul_apply, smul_eq_mul, Finset.sum_add_distrib, hs0, hR0, Matrix.mulVec, dotProduct]
    field_simp
    ring
  rw [hv]
  refine h.congr_of_eventuallyEq ?_
  exact Filter.Eventually.of_forall fun t => by simp [place, Matrix.mulVec, dotProduct]

/-- The products of the angular velocities are such matrices, and they are skew. -/
theorem cross_skew : (∀ w : ℝ, ∃ W : Matrix (Fin 2) (Fin 2) ℝ, Wᵀ = -W ∧ W 1 0 = w ∧ ∀ y, cross2 w y = W *ᵥ y) ∧
    ∀ w : V 3, ∃ W : Matrix (Fin 3) (Fin 3) ℝ, Wᵀ = -W ∧ W *ᵥ w = 0 ∧ W 2 1 = w 0 ∧ W 0 2 = w 1 ∧ W 1 0 = w 2 ∧ ∀ y, cross3 w y = W *ᵥ y := by
  constructor
  · intro w
    refine ⟨!![0, -w; w, 0], ?_, by simp, fun y => ?_⟩
    · ext i j; fin_cases i <;> fin_cases j <;> simp
    · funext i; fin_cases i <;> simp [cross2, Matrix.mulVec, dotProduct, Fin.sum_univ_two]
  · intro w
    refine ⟨!![0, -w 2, w 1; w 2, 0, -w 0; -w 1, w 0, 0], ?_, ?_, by simp, by simp, by simp, fun y => ?_⟩
    · ext i j; fin_cases i <;> fin_cases j <;> simp
    · funext i; fin_cases i <;> simp [Matrix.mulVec, dotProduct, Fin.sum_univ_three] <;> ring
    · funext i; fin_cases i <;> simp [cross3, Matrix.mulVec, dotProduct, Fin.sum_univ_three] <;> ring

/-- The normal stays a unit vector. -/
theorem normal_unit (c : Collider n) (hR : c.Rᵀ * c.R = 1) (x : V n) (h : len (c.normal (c.mat x)) = 1) : len (c.getNormal x) = 1 := by
  rw [Collider.getNormal, len_mulVec hR, h]

/-- The four functions agree. -/
theorem variants (c : Collider n) (x v V' m : V n) (e : ℝ) :
    c.resolveN x v m e = c.resolveVN x v (c.vel (c.mat x)) m e ∧ c.resolve x v e = c.resolveV x v (c.vel (c.mat x)) e ∧
      c.resolveV x v V' e = ((c.resolveVN x v V' m e).1, (c.resolveVN x v V' m e).2.1) := by
  refine ⟨rfl, rfl, ?_⟩
  rw [resolveV_eq, resolveVN_eq]
  split_ifs <;> rfl

/-- Away from the object nothing happens. -/
theorem outside_keeps (c : Collider n) (x v m : V n) (e : ℝ) (h : -e ≤ c.sd (c.mat x)) : c.resolveN x v m e = (false, v, m) := if_neg (not_lt.2 h)

/-- Inside, the velocity relative to the object obeys the rule of the contact, and the normal is that of the object. -/
theorem inside_contact (c : Collider n) (x v m : V n) (e : ℝ) (h : c.sd (c.mat x) < -e) (hm : len (c.getNormal x) = 1) :
    ∃ v', c.resolveN x v m e = (true, v', c.getNormal x) ∧ Contact c.type (c.getNormal x) (v - c.getVelocity x) (v' - c.getVelocity x) := by
  rw [(variants c x v 0 m e).1, resolveVN_eq, if_pos h]
  exact ⟨_, rfl, body_contact c.type hm _ v⟩

/-- The same with a given velocity of the material. -/
theorem inside_contact_given (c : Collider n) (x v V' m : V n) (e : ℝ) (h : c.sd (c.mat x) < -e) (hm : len (c.getNormal x) = 1) :
    ∃ v', c.resolveVN x v V' m e = (true, v', c.getNormal x) ∧
      let c' : Collider n := { c with vel := fun _ => V' }
      Contact c.type (c.getNormal x) (v - c'.getVelocity x) (v' - c'.getVelocity x) := by
  rw [resolveVN_eq, if_pos h]
  exact ⟨_, rfl, body_contact c.type hm _ v⟩

/-- Resolving twice is resolving once. -/
theorem resolve_again (c : Collider n) (x v : V n) (e : ℝ) (hm : len (c.getNormal x) = 1) : c.resolve x (c.resolve x v e).2 e = c.resolve x v e := by
  rw [(variants c x _ 0 0 e).2.1, (variants c x v 0 0 e).2.1, resolveV_eq, resolveV_eq]
  split_ifs
  · rw [body_again _ hm]
  · rfl

/-- The relative speed never grows. -/
theorem speed_le (c : Collider n) (x v : V n) (e : ℝ) (hm : len (c.getNormal x) = 1) : len ((c.resolve x v e).2 - c.getVelocity x) ≤ len (v - c.getVelocity x) := by
  rw [(variants c x v 0 0 e).2.1, resolveV_eq]
  split_ifs
  · have hb := body_contact c.type hm (c.getVelocity x) v
    change len (body c.type (c.getNormal x) (c.getVelocity x) v - c.getVelocity x) ≤ _
    set u := v - c.getVelocity x
    set u' := body c.type (c.getNormal x) (c.getVelocity x) v - c.getVelocity x
    have proj : ∀ k : ℝ, dot (c.getNormal x) u' = 0 → u' = u + k • c.getNormal x → len u' ≤ len u := fun k h0 hk => by
      refine le_of_sq_le_sq ?_ (len_nonneg u)
      have e1 : u = u' - k • c.getNormal x := by rw [hk, add_sub_cancel_right]
      have e2 : len u ^ 2 = len u' ^ 2 - 2 * k * dot (c.getNormal x) u' + k ^ 2 * len (c.getNormal x) ^ 2 := by
        rw [e1, len_sq, len_sq, len_sq, dot, Finset.mul_sum, Finset.mul_sum, ← Finset.sum_sub_distrib, ← Finset.sum_add_distrib]
        refine Finset.sum_congr rfl fun i _ => ?_
        simp only [Pi.sub_apply, Pi.smul_apply, smul_eq_mul]
        ring
      rw [e2, h0, hm]
      nlinarith [sq_nonneg k]
    generalize c.type = k at hb
    cases k
    · rw [show u' = 0 from hb, len_zero]; exact len_nonneg _
    · obtain ⟨h0, k, hk⟩ := hb
      exact proj k h0 hk
    · by_cases g : dot (c.getNormal x) u < 0
      · obtain ⟨h0, k, _, hk⟩ := hb.2 g
        exact proj k h0 hk
      · rw [hb.1 (not_lt.1 g)]
  · exact le_rfl
where
  le_of_sq_le_sq {a b : ℝ} (h : a ^ 2 ≤ b ^ 2) (hb : 0 ≤ b) : a ≤ b := by nlinarith [sq_nonneg (a - b)]

/-- For a sphere: the contact begins `s * erosion` below the surface in space. -/
theorem sphere_erosion (c : Collider n) (o : Sphere n) (hc : c.sd = o.sd) (hR : c.Rᵀ * c.R = 1) (hs : 0 < c.s) (x v : V n) (e : ℝ) :
    (c.resolve x v e).1 = true ↔ len (x - place c.s c.R c.b o.center) < c.s * o.radius - c.s * e := by
  have h1 : (c.resolve x v e).1 = true ↔ c.sd (c.mat x) < -e := by
    rw [(variants c x v 0 0 e).2.1, resolveV_eq]
    split_ifs with h <;> simp [h]
  have h2 : x - place c.s c.R c.b o.center = c.s • (c.R *ᵥ (c.mat x - o.center)) := by
    conv_lhs => rw [← place_mat hR hs.ne' x]
    rw [place, place, Matrix.mulVec_sub, smul_sub, add_sub_add_right_eq_sub]
  rw [h1, hc, h2, len_smul, len_mulVec hR, abs_of_pos hs, ← mul_sub, mul_lt_mul_iff_right₀ hs]
  change len (c.mat x - o.center) - o.radius < -e ↔ _
  constructor <;> intro h <;> linarith

/-- The erosion is not a distance in space. -/
theorem erosion_violated : ∃ (c : Collider 1) (x v : V 1), c.sd = (⟨0, 1⟩ : Sphere 1).sd ∧ c.Rᵀ * c.R = 1 ∧ 0 < c.s ∧
    len (x - place c.s c.R c.b 0) < c.s * 1 - 1 / 2 ∧ (c.resolve x v (1 / 2)).1 = false := by
  refine ⟨⟨(⟨0, 1⟩ : Sphere 1).sd, fun _ => 0, fun _ => 0, .sticky, 2, 0, 1, fun _ => 0, 0, 0⟩, fun _ => 5 / 4, 0, rfl, by simp, by norm_num, ?_, ?_⟩
  · have : (fun _ => 5 / 4 : V 1) - place 2 1 0 0 = Pi.single 0 (5 / 4) := by
      funext i; fin_cases i; simp [place]
    simp only
    rw [this, len_single]
    norm_num
  · rw [Bool.eq_false_iff, ne_eq, sphere_erosion _ ⟨0, 1⟩ rfl (by simp) (by norm_num)]
    have : (fun _ => 5 / 4 : V 1) - place 2 1 0 0 = Pi.single 0 (5 / 4) := by
      funext i; fin_cases i; simp [place]
    simp only
    rw [this, len_single]
    norm_num

/-- A slipping unit sphere in space that moves along an axis; the theorems apply. -/
noncomputable def demo : Collider 3 := ⟨(⟨0, 1⟩ : Sphere 3).sd, (⟨0, 1⟩ : Sphere 3).normal, fun _ => 0, .slip, 2, 1, 1, cross3 ![0, 0, 1], 0, ![1, 0, 0]⟩

example : demo.Rᵀ * demo.R = 1 ∧ demo.s ≠ 0 ∧ demo.Inside ![1, 0, 0] := by
  refine ⟨by simp [demo], by simp [demo], ?_⟩
  rw [inside_iff _ (by simp [demo]) (by simp [demo])]
  refine ⟨Pi.single 0 (1 / 2), ?_, ?_⟩
  · funext i; fin_cases i <;> simp [place, demo]
  · change len ((Pi.single 0 (1 / 2) : V 3) - 0) - 1 < 0
    rw [sub_zero, len_single]
    norm_num

end Verif.Collider
