import Verif.Spec.Collider
import Verif.Proof.Shapes
import Mathlib.LinearAlgebra.Matrix.NonsingularInverse
import Mathlib.Tactic.LinearCombination

/-! Relative velocities, and the map between spaces. -/
namespace Verif.Collider
open Verif.Shapes Matrix

variable {n : ℕ}

theorem dot_sub (a b c : V n) : dot a (b - c) = dot a b - dot a c := by
  simp only [dot, Pi.sub_apply, mul_sub, Finset.sum_sub_distrib]

theorem dot_smul (a b : V n) (t : ℝ) : dot a (t • b) = t * dot a b := by
  simp only [dot, Pi.smul_apply, smul_eq_mul, Finset.mul_sum]
  exact Finset.sum_congr rfl fun i _ => by ring

theorem dot_self (a : V n) : dot a a = len a ^ 2 := (len_sq a).symm

/-- The common body of the four functions. -/
noncomputable def body (k : Kind) (m vo v : V n) : V n :=
  if k = .sticky then vo else
    (if (k = .separate ∧ dot m (v - vo) < 0) ∨ k = .slip then (v - vo) - dot m (v - vo) • m else v - vo) + vo

theorem resolveVN_eq (c : Collider n) (x v V' normal : V n) (e : ℝ) : c.resolveVN x v V' normal e =
    if c.sd (c.mat x) < -e then (true, body c.type (c.getNormal x) (c.cross (x - c.b) + (c.dsdt * (1 / c.s)) • (x - c.b) + (c.s • c.R) *ᵥ V' + c.dbdt) v, c.getNormal x)
    else (false, v, normal) := by
  unfold Collider.resolveVN body Collider.getNormal
  by_cases h : c.type = .sticky
  · simp only [if_pos h]
  · simp only [if_neg h]

theorem resolveV_eq (c : Collider n) (x v V' : V n) (e : ℝ) : c.resolveV x v V' e =
    if c.sd (c.mat x) < -e then (true, body c.type (c.getNormal x) (c.cross (x - c.b) + (c.dsdt * (1 / c.s)) • (x - c.b) + (c.s • c.R) *ᵥ V' + c.dbdt) v)
    else (false, v) := by
  unfold Collider.resolveV body Collider.getNormal
  by_cases h : c.type = .sticky
  · simp only [if_pos h]
  · simp only [if_neg h]

theorem body_contact (k : Kind) {m : V n} (hm : len m = 1) (vo v : V n) : Contact k m (v - vo) (body k m vo v - vo) := by
  have hp : ∀ u : V n, dot m (u - dot m u • m) = 0 := fun u => by
    rw [dot_sub, dot_smul, dot_self, hm]; ring
  have hc : ∀ u : V n, u - dot m u • m = u + (-dot m u) • m := fun u => by rw [neg_smul, sub_eq_add_neg]
  cases k
  · simp [Contact, body]
  · have : body .slip m vo v - vo = (v - vo) - dot m (v - vo) • m := by simp [body]
    rw [this]
    exact ⟨hp _, _, hc _⟩
  · constructor
    · intro h
      simp [body, not_lt.2 h]
    · intro h
      have : body .separate m vo v - vo = (v - vo) - dot m (v - vo) • m := by simp [body, h]
      rw [this]
      exact ⟨hp _, _, by linarith, hc _⟩

theorem body_again (k : Kind) {m : V n} (hm : len m = 1) (vo v : V n) : body k m vo (body k m vo v) = body k m vo v := by
  have h := body_contact k hm vo v
  set w := body k m vo v with hw
  cases k
  · simp [hw, body]
  · have h0 : dot m (w - vo) = 0 := h.1
    simp [body, h0]
  · have h0 : ¬ dot m (w - vo) < 0 := by
      by_cases g : dot m (v - vo) < 0
      · rw [(h.2 g).1]; exact lt_irrefl _
      · rw [h.1 (not_lt.1 g)]; exact g
    simp [body, h0]

theorem len_mulVec {R : Matrix (Fin n) (Fin n) ℝ} (hR : Rᵀ * R = 1) (x : V n) : len (R *ᵥ x) = len x := by
  rw [len, len]
  congr 1
  change (R *ᵥ x) ⬝ᵥ (R *ᵥ x) = x ⬝ᵥ x
  rw [Matrix.dotProduct_mulVec, Matrix.vecMul_mulVec, hR, Matrix.vecMul_one]

theorem place_mat {c : Collider n} (hR : c.Rᵀ * c.R = 1) (hs : c.s ≠ 0) (x : V n) : place c.s c.R c.b (c.mat x) = x := by
  rw [place, Collider.mat, Matrix.mulVec_smul, Matrix.mulVec_mulVec, mul_eq_one_comm.1 hR, Matrix.one_mulVec, smul_smul, mul_one_div, div_self hs, one_smul, sub_add_cancel]

theorem mat_place {c : Collider n} (hR : c.Rᵀ * c.R = 1) (hs : c.s ≠ 0) (X : V n) : c.mat (place c.s c.R c.b X) = X := by
  rw [place, Collider.mat, add_sub_cancel_right, Matrix.mulVec_smul, Matrix.mulVec_mulVec, hR, Matrix.one_mulVec, smul_smul, one_div_mul_cancel hs, one_smul]

end Verif.Collider
