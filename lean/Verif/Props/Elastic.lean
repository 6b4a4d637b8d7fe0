import Verif.Spec.Elastic
import Verif.Proof.Elastic
import Verif.Proof.ElasticCorotated
import Verif.Proof.ElasticSpd
import Verif.Proof.ElasticSvd
import Verif.Props.Eigen

/-! C78: elastic energies, stresses and tangents. -/
namespace Verif.Elastic

open Matrix
open Verif.Mat (Store upd)
open Verif.Rot (Mx mx IsRot frobSq)

/-! ## Parameters -/

/-- The two conversions between the material parameters are inverse to each other. -/
theorem lame_roundtrip {E nu : ℝ} (hE : E ≠ 0) (h1 : 1 + nu ≠ 0) (h2 : 1 - 2 * nu ≠ 0) :
    eNu (lameParameters E nu).1 (lameParameters E nu).2 = (E, nu) := by
  have h2' : 1 - nu * 2 ≠ 0 := by rwa [mul_comm nu 2]
  have e : (lameParameters E nu).2 + (lameParameters E nu).1 = E / (2 * ((1 + nu) * (1 - 2 * nu))) := by
    simp only [lameParameters]; field_simp; ring
  have h3 : E / (2 * ((1 + nu) * (1 - 2 * nu))) ≠ 0 := div_ne_zero hE (mul_ne_zero two_ne_zero (mul_ne_zero h1 h2))
  simp only [eNu, e]
  simp only [lameParameters]
  refine Prod.ext ?_ ?_
  · dsimp only; field_simp; ring
  · dsimp only; field_simp

/-- The constructor of the equation of state does not use its argument gamma. -/
theorem eos_gamma_violated : eosNew 1 0 5 = eosNew 1 0 7 ∧ (eosNew 1 0 5).2 ≠ 5 := ⟨rfl, by norm_num [eosNew]⟩

/-- Energy, stress and derivative of the stress of the equation of state. -/
theorem eos_derivatives (bulk : ℝ) {J : ℝ} (hJ : J ≠ 0) :
    HasDerivAt (eosPsi bulk) (eosPiola bulk J) J ∧ HasDerivAt (eosPiola bulk) (eosPiolaDerivative bulk J) J := by
  have hpow : ∀ k : ℕ, HasDerivAt (fun y : ℝ => (y ^ k)⁻¹) (-(k * J ^ (k - 1)) / (J ^ k) ^ 2) J := fun k =>
    (hasDerivAt_pow k J).inv (pow_ne_zero _ hJ)
  constructor
  · have e : eosPsi bulk = fun y => bulk * (1 / 6 * (y ^ 6)⁻¹ + y) := by
      funext y; simp only [eosPsi]; rw [div_eq_mul_inv (1 / 6 : ℝ)]; ring_nf
    rw [e]
    refine ((((hpow 6).const_mul (1 / 6 : ℝ)).add (hasDerivAt_id J)).const_mul bulk).congr_deriv ?_
    simp only [eosPiola]; push_cast; field_simp; ring
  · have e : eosPiola bulk = fun y => bulk - bulk * (y ^ 7)⁻¹ := by
      funext y; simp only [eosPiola]; rw [div_eq_mul_inv]; ring_nf
    rw [e]
    refine (((hpow 7).const_mul bulk).const_sub bulk).congr_deriv ?_
    simp only [eosPiolaDerivative]; push_cast; field_simp

/-! ## Singular values -/

/-- The first derivatives of the energy of the Neo-Hookean model. -/
theorem neoHookean_dpsi (mu lam : ℝ) {n : Nat} {S : Store ℝ} (hn : n ≤ 3) (hS : ∀ k < n, S k ≠ 0) :
    IsPartials n ((neoHookean mu lam).psi n) S ((neoHookean mu lam).dpsi n S) := by
  intro i hi
  have h := nh_psi_deriv mu lam (Mat.l2NormSqr n (upd S i 0)) n (rest_ne hn hi hS) (hS i hi)
  have e : ∀ y, (neoHookean mu lam).psi n (upd S i y) = 1 / 2 * mu * (Mat.l2NormSqr n (upd S i 0) + y * y - n)
      - (mu - 1 / 2 * lam * Real.log (rest n S i * y)) * Real.log (rest n S i * y) := fun y => by
    rw [← nrm_upd S hn hi, ← prod_upd S hn hi]; rfl
  simp only [e]
  simp only [neoHookean]
  rw [prod_rest S hn hi]
  exact h

/-- The second derivatives. -/
theorem neoHookean_d2psi (mu lam : ℝ) {n i : Nat} {S : Store ℝ} (hn : n ≤ 3) (hi : i < n) (hS : ∀ k < n, S k ≠ 0) :
    IsPartials n (fun S => (neoHookean mu lam).dpsi n S i) S ((neoHookean mu lam).d2psi n S i) := by
  intro j hj
  rw [nh_d2 mu lam S hn hi hj]
  simp only [neoHookean, prod_upd S hn hj]
  rw [prod_rest S hn hj]
  by_cases h : i = j
  · subst h
    rw [if_pos rfl]
    simp only [upd, if_true]
    exact nh_dpsi_diag mu lam (rest_ne hn hj hS) (hS i hj)
  · rw [if_neg h]
    simp only [upd, if_neg h]
    exact nh_dpsi_off lam _ (S i) (rest_ne hn hj hS) (hS j hj)

/-- The first derivatives of the energy of the fixed corotated model. -/
theorem fixedCorotated_dpsi (mu lam : ℝ) {n : Nat} (S : Store ℝ) (hn : n ≤ 3) :
    IsPartials n ((fixedCorotated mu lam).psi n) S ((fixedCorotated mu lam).dpsi n S) := by
  intro i hi
  have e : sprod n S i = rest n S i := by
    unfold rest
    interval_cases n <;> interval_cases i <;> simp [sprod, prod_one, prod_two, prod_three, upd]
  have h := fcr_psi_deriv mu lam (Mat.l2NormSqr n (upd (fun k => S k - 1) i 0)) (rest n S i) (S i)
  have e2 : ∀ y, Mat.l2NormSqr n (fun k => upd S i y k - 1) = Mat.l2NormSqr n (upd (fun k => S k - 1) i 0) + (y - 1) * (y - 1) := fun y => by
    rw [upd_map (fun z => z - 1), nrm_upd _ hn hi]
  simp only [fixedCorotated, prod_upd S hn hi, e2, e]
  rw [prod_rest S hn hi]
  exact h

/-- The second derivatives, in two and three dimensions. -/
theorem fixedCorotated_d2psi_partial (mu lam : ℝ) {n i : Nat} (S : Store ℝ) (hn : n = 2 ∨ n = 3) (hi : i < n) :
    IsPartials n (fun S => (fixedCorotated mu lam).dpsi n S i) S ((fixedCorotated mu lam).d2psi n S i) := by
  intro j hj
  have d2 : ∀ (a b : ℝ) {f : ℝ → ℝ} {c v x : ℝ}, (∀ y, f y = a + b * y + c * (y * y)) → v = b + 2 * c * x → HasDerivAt f v x := by
    intro a b f c v x h1 h2
    rw [h2]; exact quad_deriv a b c x h1
  rcases hn with rfl | rfl
  · interval_cases i <;> interval_cases j
    · refine d2 (-(mu + mu) - lam * S 1) ((mu + mu) + lam * S 1 * S 1) (c := 0) (fun y => ?_) ?_ <;>
        simp [fixedCorotated, sprod, prod_two, upd, set2, Rot.set] <;> ring
    · refine d2 ((mu + mu) * (S 0 - 1)) (-lam) (c := lam * S 0) (fun y => ?_) ?_ <;>
        simp [fixedCorotated, sprod, prod_two, upd, set2, Rot.set] <;> ring
    · refine d2 ((mu + mu) * (S 1 - 1)) (-lam) (c := lam * S 1) (fun y => ?_) ?_ <;>
        simp [fixedCorotated, sprod, prod_two, upd, set2, Rot.set] <;> ring
    · refine d2 (-(mu + mu) - lam * S 0) ((mu + mu) + lam * S 0 * S 0) (c := 0) (fun y => ?_) ?_ <;>
        simp [fixedCorotated, sprod, prod_two, upd, set2, Rot.set] <;> ring
  · interval_cases i <;> interval_cases j
    · refine d2 (-(mu + mu) - lam * (S 1 * S 2)) ((mu + mu) + lam * (S 1 * S 2) * (S 1 * S 2)) (c := 0) (fun y => ?_) ?_ <;>
        simp [fixedCorotated, sprod, prod_three, upd, set2, Rot.set] <;> ring
    · refine d2 ((mu + mu) * (S 0 - 1)) (-lam * S 2) (c := lam * S 0 * S 2 * S 2) (fun y => ?_) ?_ <;>
        simp [fixedCorotated, sprod, prod_three, upd, set2, Rot.set] <;> ring
    · refine d2 ((mu + mu) * (S 0 - 1)) (-lam * S 1) (c := lam * S 0 * S 1 * S 1) (fun y => ?_) ?_ <;>
        simp [fixedCorotated, sprod, prod_three, upd, set2, Rot.set] <;> ring
    · refine d2 ((mu + mu) * (S 1 - 1)) (-lam * S 2) (c := lam * S 1 * S 2 * S 2) (fun y => ?_) ?_ <;>
        simp [fixedCorotated, sprod, prod_three, upd, set2, Rot.set] <;> ring
    · refine d2 (-(mu + mu) - lam * (S 0 * S 2)) ((mu + mu) + lam * (S 0 * S 2) * (S 0 * S 2)) (c := 0) (fun y => ?_) ?_ <;>
        simp [fixedCorotated, sprod, prod_three, upd, set2, Rot.set] <;> ring
    · refine d2 ((mu + mu) * (S 1 - 1)) (-lam * S 0) (c := lam * S 1 * S 0 * S 0) (fun y => ?_) ?_ <;>
        simp [fixedCorotated, sprod, prod_three, upd, set2, Rot.set] <;> ring
    · refine d2 ((mu + mu) * (S 2 - 1)) (-lam * S 1) (c := lam * S 2 * S 1 * S 1) (fun y => ?_) ?_ <;>
        simp [fixedCorotated, sprod, prod_three, upd, set2, Rot.set] <;> ring
    · refine d2 ((mu + mu) * (S 2 - 1)) (-lam * S 0) (c := lam * S 2 * S 0 * S 0) (fun y => ?_) ?_ <;>
        simp [fixedCorotated, sprod, prod_three, upd, set2, Rot.set] <;> ring
    · refine d2 (-(mu + mu) - lam * (S 0 * S 1)) ((mu + mu) + lam * (S 0 * S 1) * (S 0 * S 1)) (c := 0) (fun y => ?_) ?_ <;>
        simp [fixedCorotated, sprod, prod_three, upd, set2, Rot.set] <;> ring

/-- In one dimension the second derivative is 2 mu + lambda; the code says 1. -/
theorem fixedCorotated_d2psi_violated :
    ¬ IsPartials 1 (fun S => (fixedCorotated 1 1).dpsi 1 S 0) (fun _ => 1) ((fixedCorotated 1 1).d2psi 1 (fun _ => 1) 0) ∧
      HasDerivAt (fun y => (fixedCorotated 1 1).dpsi 1 (upd (fun _ => 1) 0 y) 0) 3 1 := by
  have h : HasDerivAt (fun y => (fixedCorotated 1 1).dpsi 1 (upd (fun _ => 1) 0 y) 0) 3 1 :=
    lin_deriv (-3) 3 1 fun y => by simp [fixedCorotated, sprod, prod_one, upd]; ring
  refine ⟨fun hc => ?_, h⟩
  have := (hc 0 (by norm_num)).unique h
  simp [fixedCorotated, Rot.set] at this

/-- The first derivatives of the energy of the St. Venant-Kirchhoff model with Hencky strain. -/
theorem stvk_dpsi (eps mu lam : ℝ) {n : Nat} {S : Store ℝ} (hn : n ≤ 3) (hS : ∀ k < n, S k ≠ 0) :
    IsPartials n ((stvk eps mu lam).psi n) S ((stvk eps mu lam).dpsi n S) := by
  intro i hi
  have h := stvk_psi_deriv mu lam (Mat.sum n (upd (fun k => Real.log |S k| * Real.log |S k|) i 0)) (Mat.sum n (upd (fun k => Real.log |S k|) i 0)) (hS i hi)
  have e1 : ∀ y, Mat.sum n (fun k => Real.log |upd S i y k|) = Mat.sum n (upd (fun k => Real.log |S k|) i 0) + Real.log |y| := fun y => by
    rw [upd_map (fun z => Real.log |z|), sum_upd _ hn hi]
  have e2 : ∀ y, Mat.sum n (fun k => Real.log |upd S i y k| * Real.log |upd S i y k|)
      = Mat.sum n (upd (fun k => Real.log |S k| * Real.log |S k|) i 0) + Real.log |y| * Real.log |y| := fun y => by
    rw [upd_map (fun z => Real.log |z| * Real.log |z|), sum_upd _ hn hi]
  have e3 := e1 (S i)
  rw [upd_self] at e3
  simp only [stvk, e1, e2, e3]
  exact h

/-- The second derivatives. -/
theorem stvk_d2psi (eps mu lam : ℝ) {n i : Nat} {S : Store ℝ} (hn : n ≤ 3) (hi : i < n) (hS : ∀ k < n, S k ≠ 0) :
    IsPartials n (fun S => (stvk eps mu lam).dpsi n S i) S ((stvk eps mu lam).d2psi n S i) := by
  intro j hj
  rw [stvk_d2 eps mu lam S hn hi hj]
  have e1 : ∀ y, Mat.sum n (fun k => Real.log |upd S j y k|) = Mat.sum n (upd (fun k => Real.log |S k|) j 0) + Real.log |y| := fun y => by
    rw [upd_map (fun z => Real.log |z|), sum_upd _ hn hj]
  have e3 := e1 (S j)
  rw [upd_self] at e3
  simp only [stvk, e1, e3]
  by_cases h : i = j
  · subst h
    rw [if_pos rfl]
    simp only [upd, if_true]
    exact stvk_dpsi_diag mu lam _ (hS i hj)
  · rw [if_neg h]
    simp only [upd, if_neg h]
    exact stvk_dpsi_off lam _ _ (S i) (hS j hj)

/-- The coefficients of the Neo-Hookean model. -/
theorem neoHookean_twist (mu lam : ℝ) {n i : Nat} {S : Store ℝ} (hn : n = 2 ∧ i = 0 ∨ n = 3 ∧ i < 3) (hS : ∀ k < n, S k ≠ 0) :
    IsTwist (neoHookean mu lam) n S i := by
  unfold IsTwist
  have h0 := hS 0; have h1 := hS 1; have h2 := hS 2
  obtain ⟨rfl, rfl⟩ | ⟨rfl, hi⟩ := hn
  · have h0 := h0 (by norm_num); have h1 := h1 (by norm_num)
    by_cases e : S 0 = S 1
    · simp only [Nat.reduceAdd, Nat.reduceMod, e, if_true]
      simp [neoHookean, prod_two, upd, set2, Rot.set, e]
      field_simp; ring
    · simp only [Nat.reduceAdd, Nat.reduceMod, e, if_false]
      have := sub_ne_zero.2 e
      simp [neoHookean, prod_two, upd]
      generalize Real.log _ = l
      field_simp; ring
  · have h0 := h0 (by norm_num); have h1 := h1 (by norm_num); have h2 := h2 (by norm_num)
    interval_cases i
    · by_cases e : S 0 = S 1
      · simp only [Nat.reduceAdd, Nat.reduceMod, e, if_true]
        simp [neoHookean, prod_three, upd, set2, Rot.set, e]
        generalize Real.log _ = l
        field_simp; ring
      · simp only [Nat.reduceAdd, Nat.reduceMod, e, if_false]
        have := sub_ne_zero.2 e
        simp [neoHookean, prod_three, upd]
        generalize Real.log _ = l
        field_simp; ring
    · by_cases e : S 1 = S 2
      · simp only [Nat.reduceAdd, Nat.reduceMod, e, if_true]
        simp [neoHookean, prod_three, upd, set2, Rot.set, e]
        generalize Real.log _ = l
        field_simp; ring
      · simp only [Nat.reduceAdd, Nat.reduceMod, e, if_false]
        have := sub_ne_zero.2 e
        simp [neoHookean, prod_three, upd]
        generalize Real.log _ = l
        field_simp; ring
    · by_cases e : S 2 = S 0
      · simp only [Nat.reduceAdd, Nat.reduceMod, e, if_true]
        simp [neoHookean, prod_three, upd, set2, Rot.set, e]
        generalize Real.log _ = l
        field_simp; ring
      · simp only [Nat.reduceAdd, Nat.reduceMod, e, if_false]
        have := sub_ne_zero.2 e
        simp [neoHookean, prod_three, upd]
        generalize Real.log _ = l
        field_simp; ring

/-- The coefficients of the fixed corotated model. -/
theorem fixedCorotated_twist (mu lam : ℝ) {n i : Nat} (S : Store ℝ) (hn : n = 2 ∧ i = 0 ∨ n = 3 ∧ i < 3) :
    IsTwist (fixedCorotated mu lam) n S i := by
  unfold IsTwist
  obtain ⟨rfl, rfl⟩ | ⟨rfl, hi⟩ := hn
  · by_cases e : S 0 = S 1
    · simp only [Nat.reduceAdd, Nat.reduceMod, e, if_true]
      simp [fixedCorotated, sprod, prod_two, upd, set2, Rot.set, e]
      ring
    · simp only [Nat.reduceAdd, Nat.reduceMod, e, if_false]
      have := sub_ne_zero.2 e
      simp [fixedCorotated, sprod, prod_two, upd]
      field_simp; ring
  · interval_cases i
    · by_cases e : S 0 = S 1
      · simp only [Nat.reduceAdd, Nat.reduceMod, e, if_true]
        simp [fixedCorotated, sprod, prod_three, upd, set2, Rot.set, e]
        ring
      · simp only [Nat.reduceAdd, Nat.reduceMod, e, if_false]
        have := sub_ne_zero.2 e
        simp [fixedCorotated, sprod, prod_three, upd]
        field_simp; ring
    · by_cases e : S 1 = S 2
      · simp only [Nat.reduceAdd, Nat.reduceMod, e, if_true]
        simp [fixedCorotated, sprod, prod_three, upd, set2, Rot.set, e]
        ring
      · simp only [Nat.reduceAdd, Nat.reduceMod, e, if_false]
        have := sub_ne_zero.2 e
        simp [fixedCorotated, sprod, prod_three, upd]
        field_simp; ring
    · by_cases e : S 2 = S 0
      · simp only [Nat.reduceAdd, Nat.reduceMod, e, if_true]
        simp [fixedCorotated, sprod, prod_three, upd, set2, Rot.set, e]
        ring
      · simp only [Nat.reduceAdd, Nat.reduceMod, e, if_false]
        have := sub_ne_zero.2 e
        simp [fixedCorotated, sprod, prod_three, upd]
        field_simp; ring

/-- The coefficients of the St. Venant-Kirchhoff model in two dimensions, if the ratio of the singular values is not nearly 1 or is 1. -/
theorem stvk_twist2 {eps : ℝ} (he : 0 < eps) (mu lam : ℝ) {S : Store ℝ} (h0 : 0 < S 0) (h1 : 0 < S 1) (hr : eps ≤ S 0 / S 1)
    (hq : S 0 = S 1 ∨ eps ≤ |S 0 / S 1 - 1|) : IsTwist (stvk eps mu lam) 2 S 0 := by
  unfold IsTwist
  have hm : max (S 0 / S 1 - 1) (-1 + eps) = S 0 / S 1 - 1 := max_eq_left (by linarith)
  by_cases e : S 0 = S 1
  · have hd : S 1 / S 1 - 1 = 0 := by rw [div_self h1.ne', sub_self]
    simp only [Nat.reduceAdd, Nat.reduceMod, e, if_true]
    simp only [stvk, e] at hm ⊢
    rw [hm, hd, abs_zero, if_pos he]
    simp [prod_two, sum_two, upd, set2, Rot.set, e]
    field_simp; ring
  · simp only [Nat.reduceAdd, Nat.reduceMod, e, if_false]
    have hs := sub_ne_zero.2 e
    have hq' : ¬ |S 0 / S 1 - 1| < eps := not_lt.2 (hq.resolve_left e)
    simp only [stvk]
    rw [hm, if_neg hq', show 1 + (S 0 / S 1 - 1) = S 0 / S 1 by ring, Real.log_div h0.ne' h1.ne']
    simp [prod_two, sum_two, upd]
    rw [show S 0 / S 1 - 1 = (S 0 - S 1) / S 1 by field_simp]
    field_simp; ring

/-- The coefficients of the St. Venant-Kirchhoff model in three dimensions. -/
theorem stvk_twist3 {eps : ℝ} (he : 0 < eps) (mu lam : ℝ) {S : Store ℝ} (hS : ∀ k < 3, 0 < S k)
    (hq : ∀ a b, a < b → b < 3 → S a = S b ∨ eps ≤ |S a / S b - 1|) {i : Nat} (hi : i < 3) : IsTwist (stvk eps mu lam) 3 S i := by
  have h0 := hS 0 (by norm_num); have h1 := hS 1 (by norm_num); have h2 := hS 2 (by norm_num)
  have same : ∀ y : ℝ, 0 < y → diffInterlock eps y |y| (Real.log |y|) = Real.log |y| - 1 := fun y hy => by
    have hd : y / |y| - 1 = 0 := by rw [abs_of_pos hy, div_self hy.ne', sub_self]
    simp only [diffInterlock, diffLog, log1pxOverX]
    rw [hd, abs_zero, if_pos he]
    simp [hy.ne', hy]
  have diff : ∀ x y : ℝ, 0 < x → 0 < y → x ≠ y → (x = y ∨ eps ≤ |x / y - 1|) →
      diffInterlock eps x |y| (Real.log |y|) = (x * Real.log |y| - y * Real.log |x|) / (x - y) := fun x y hx hy hne h => by
    have hs := sub_ne_zero.2 hne
    simp only [diffInterlock, diffLog, log1pxOverX, abs_of_pos hy, abs_of_pos hx]
    rw [if_neg (not_lt.2 (h.resolve_left hne)), show 1 + (x / y - 1) = x / y by ring, Real.log_div hx.ne' hy.ne']
    rw [show x / y - 1 = (x - y) / y by field_simp]
    field_simp; ring
  unfold IsTwist
  interval_cases i
  · by_cases e : S 0 = S 1
    · simp only [Nat.reduceAdd, Nat.reduceMod, e, if_true]
      simp only [stvk, e, same _ h1]
      simp [sum_three, upd, set2, Rot.set, e]
      field_simp; ring
    · simp only [Nat.reduceAdd, Nat.reduceMod, e, if_false]
      have hs := sub_ne_zero.2 e
      simp only [stvk, diff _ _ h0 h1 e (hq 0 1 (by norm_num) (by norm_num))]
      simp [sum_three, upd]
      field_simp; ring
  · by_cases e : S 1 = S 2
    · simp only [Nat.reduceAdd, Nat.reduceMod, e, if_true]
      simp only [stvk, e, same _ h2]
      simp [sum_three, upd, set2, Rot.set, e]
      field_simp; ring
    · simp only [Nat.reduceAdd, Nat.reduceMod, e, if_false]
      have hs := sub_ne_zero.2 e
      simp only [stvk, diff _ _ h1 h2 e (hq 1 2 (by norm_num) (by norm_num))]
      simp [sum_three, upd]
      field_simp; ring
  · by_cases e : S 2 = S 0
    · simp only [Nat.reduceAdd, Nat.reduceMod, e, if_true]
      simp only [stvk, e, same _ h0]
      simp [sum_three, upd, set2, Rot.set, e]
      field_simp; ring
    · simp only [Nat.reduceAdd, Nat.reduceMod, e, if_false]
      have hs := sub_ne_zero.2 e
      have hs' := sub_ne_zero.2 (Ne.symm e)
      simp only [stvk, diff _ _ h0 h2 (Ne.symm e) (hq 0 2 (by norm_num) (by norm_num))]
      simp [sum_three, upd]
      field_simp; ring

/-! ## Neo-Hookean: the stress is the gradient of the energy, the tangent is the derivative of the stress -/

theorem neoHookean_gradient (mu lam : ℝ) {n : Nat} {svd : Mx → Svd} (hs : ∀ F, 0 < (mx n F).det → IsSvd n F (svd F)) {F : Mx} (hF : 0 < (mx n F).det) :
    IsGradient n (fun F => (neoHookean mu lam).energy n (svd F)) F ((neoHookean mu lam).piola n (svd F)) := by
  intro G
  have h := hs F hF
  have hd := det_line (mx n G) hF.ne'
  have hl : HasDerivAt (fun t : ℝ => Real.log (mx n F + t • mx n G).det) ((mx n F)⁻¹ * mx n G).trace 0 := by
    have := hd.log (by simpa using hF.ne')
    refine this.congr_deriv ?_
    simp only [zero_smul, add_zero]
    exact mul_div_cancel_left₀ _ hF.ne'
  have hf := frob_line (n := n) F G
  have ht := ((hf.sub_const (n : ℝ)).const_mul (1 / 2 * mu)).sub (((hl.const_mul (1 / 2 * lam)).const_sub mu).mul hl)
  have hv : inner n ((neoHookean mu lam).piola n (svd F)) G
      = mu * inner n F G + (lam * Real.log (mx n F).det - mu) * ((mx n F)⁻¹ * mx n G).trace := by
    rw [inner_trace, nh_piola mu lam h hF.ne', inner_trace, Matrix.transpose_add, Matrix.transpose_smul, Matrix.transpose_smul, Matrix.transpose_transpose,
      Matrix.add_mul, Matrix.smul_mul, Matrix.smul_mul, Matrix.trace_add, Matrix.trace_smul, Matrix.trace_smul, smul_eq_mul, smul_eq_mul]
  rw [hv]
  refine (ht.congr_deriv ?_).congr_of_eventuallyEq ?_
  · simp only [zero_smul, add_zero]; ring
  · filter_upwards [line_det_ne (mx n G) hF] with t ht'
    rw [← line_mx] at ht'
    rw [nh_energy mu lam (hs _ ht'), line_mx]
    rfl

/-- The derivative of the stress, by a formula. -/
theorem neoHookean_piola_deriv (mu lam : ℝ) {n : Nat} {svd : Mx → Svd} (hs : ∀ F, 0 < (mx n F).det → IsSvd n F (svd F)) {F : Mx}
    (hF : 0 < (mx n F).det) (G : Mx) (i j : Fin n) :
    HasDerivAt (fun t => (neoHookean mu lam).piola n (svd (line F G t)) i j)
      ((mx n (svd F).U * nhFrame mu lam (Real.log (Mat.prod n (svd F).S)) (svd F).S ((mx n (svd F).U)ᵀ * mx n G * mx n (svd F).V) * (mx n (svd F).V)ᵀ) i j) 0 := by
  have h := hs F hF
  have hd := det_line (mx n G) hF.ne'
  have hl : HasDerivAt (fun t : ℝ => Real.log (mx n F + t • mx n G).det) ((mx n F)⁻¹ * mx n G).trace 0 := by
    have := hd.log (by simpa using hF.ne')
    refine this.congr_deriv ?_
    simp only [zero_smul, add_zero]
    exact mul_div_cancel_left₀ _ hF.ne'
  have hi := inv_line (mx n G) hF j i
  have hlin : HasDerivAt (fun t : ℝ => mu * (F i j + t * G i j)) (mu * G i j) 0 :=
    lin_deriv (mu * F i j) (mu * G i j) 0 fun y => by ring
  have ht := hlin.add (((hl.const_mul lam).sub_const mu).mul hi)
  rw [nh_back mu lam h hF.ne', ← h.det]
  refine (ht.congr_deriv ?_).congr_of_eventuallyEq ?_
  · simp only [zero_smul, add_zero, Matrix.sub_apply, Matrix.add_apply, Matrix.smul_apply, smul_eq_mul, Matrix.transpose_apply]
    simp only [mx]; ring
  · filter_upwards [line_det_ne (mx n G) hF] with t ht'
    rw [← line_mx] at ht'
    have := congrFun (congrFun (nh_piola mu lam (hs _ ht') ht'.ne') i) j
    rw [line_mx] at this
    simp only [mx, Matrix.add_apply, Matrix.smul_apply, smul_eq_mul, Matrix.transpose_apply] at this
    rw [this]; rfl

/-- Three dimensions; no two singular values sum to less than the bound the code divides by. -/
theorem neoHookean_tangent3 (mu lam : ℝ) {clamp : ℝ} (hc : 0 < clamp) {svd : Mx → Svd} (hs : ∀ F, 0 < (mx 3 F).det → IsSvd 3 F (svd F)) {F : Mx}
    (hF : 0 < (mx 3 F).det) (hp : ∀ i j, i < j → j < 3 → clamp ≤ (svd F).S i + (svd F).S j) :
    IsDerivative 3 (fun F => (neoHookean mu lam).piola 3 (svd F)) F ((neoHookean mu lam).tangent clamp none 3 (svd F)) := by
  intro G i hi j hj
  have h := neoHookean_piola_deriv mu lam hs hF G ⟨i, hi⟩ ⟨j, hj⟩
  refine h.congr_deriv ?_
  have hS : ∀ k < 3, (svd F).S k ≠ 0 := fun k hk => (hs F hF).ne hF.ne' ⟨k, hk⟩
  rw [← nh_frame3 mu lam hc hS hp]
  have hsym : ∀ a b, a < 3 → b < 3 → (neoHookean mu lam).d2psi 3 (svd F).S a b = (neoHookean mu lam).d2psi 3 (svd F).S b a := fun a b ha hb => by
    rw [nh_d2 _ _ _ (le_refl 3) ha hb, nh_d2 _ _ _ (le_refl 3) hb ha]
    by_cases e : a = b
    · subst e; rfl
    · rw [if_neg e, if_neg (Ne.symm e), mul_comm]
  rw [← contract3, ← fill_contract 3 _ (entry3_symm hsym (computeBij_symm _ _ _ _ _ _) (computeBij_symm _ _ _ _ _ _) (computeBij_symm _ _ _ _ _ _) _ _) G hi hj]
  rfl

/-- Two dimensions. -/
theorem neoHookean_tangent2 (mu lam : ℝ) {clamp : ℝ} (hc : 0 < clamp) {svd : Mx → Svd} (hs : ∀ F, 0 < (mx 2 F).det → IsSvd 2 F (svd F)) {F : Mx}
    (hF : 0 < (mx 2 F).det) (hp : clamp ≤ (svd F).S 0 + (svd F).S 1) :
    IsDerivative 2 (fun F => (neoHookean mu lam).piola 2 (svd F)) F ((neoHookean mu lam).tangent clamp none 2 (svd F)) := by
  intro G i hi j hj
  have h := neoHookean_piola_deriv mu lam hs hF G ⟨i, hi⟩ ⟨j, hj⟩
  refine h.congr_deriv ?_
  have hS : ∀ k < 2, (svd F).S k ≠ 0 := fun k hk => (hs F hF).ne hF.ne' ⟨k, hk⟩
  rw [← nh_frame2 mu lam hc hS hp]
  have hsym : (neoHookean mu lam).d2psi 2 (svd F).S 0 1 = (neoHookean mu lam).d2psi 2 (svd F).S 1 0 := by
    rw [nh_d2 _ _ _ (by norm_num) (by norm_num) (by norm_num), nh_d2 _ _ _ (by norm_num) (by norm_num) (by norm_num), if_neg (by norm_num),
      if_neg (by norm_num), mul_comm]
  rw [← contract2, ← fill_contract 2 _ (entry2_symm hsym (computeBij_symm _ _ _ _ _ _) _ _) G hi hj]
  rfl

/-! ## Fixed corotated: the stress is the gradient of the energy -/

/-- What both dimensions need. -/
theorem fixedCorotated_gradient_aux (mu lam : ℝ) {n : Nat} (hn : n = 2 ∨ n = 3) {svd : Mx → Svd} (hs : ∀ F, IsSvd n F (svd F)) {F G : Mx}
    (hdet : HasDerivAt (fun t : ℝ => (mx n F + t • mx n G).det) ((mx n F).adjugate * mx n G).trace 0)
    (hnuc : HasDerivAt (fun t => nuc n (svd (line F G t)).S) ((mx n (svd F).U * (mx n (svd F).V)ᵀ)ᵀ * mx n G).trace 0) :
    HasDerivAt (fun t => (fixedCorotated mu lam).energy n (svd (line F G t))) (inner n ((fixedCorotated mu lam).piola n (svd F)) G) 0 := by
  have e : (fun t => (fixedCorotated mu lam).energy n (svd (line F G t))) = fun t =>
      mu * (frobSq (mx n F + t • mx n G) - 2 * nuc n (svd (line F G t)).S + n)
        + 1 / 2 * lam * ((mx n F + t • mx n G).det - 1) * ((mx n F + t • mx n G).det - 1) := by
    funext t; rw [fcr_energy mu lam (hs _), line_mx]
  rw [e]
  have hf := frob_line (n := n) F G
  have ht := (((hf.sub (hnuc.const_mul 2)).add_const (n : ℝ)).const_mul mu).add (((hdet.sub_const 1).const_mul (1 / 2 * lam)).mul (hdet.sub_const 1))
  refine ht.congr_deriv ?_
  rw [inner_trace, inner_trace, fcr_piola mu lam hn (hs F), Matrix.transpose_add, Matrix.transpose_smul, Matrix.transpose_smul, Matrix.transpose_transpose,
    Matrix.transpose_sub, Matrix.add_mul, Matrix.smul_mul, Matrix.smul_mul, Matrix.sub_mul, Matrix.trace_add, Matrix.trace_smul, Matrix.trace_smul,
    Matrix.trace_sub, smul_eq_mul, smul_eq_mul]
  simp only [zero_smul, add_zero]
  ring

/-- Three dimensions: the decomposition keeps the sums of two singular values from being negative, as `qr_svd` does, and at F they are positive. -/
theorem fixedCorotated_gradient3 (mu lam : ℝ) {svd : Mx → Svd} (hs : ∀ F, IsSvd 3 F (svd F))
    (hb : ∀ F i j, i < j → j < 3 → 0 ≤ (svd F).S i + (svd F).S j) {F : Mx} (hF : ∀ i j, i < j → j < 3 → 0 < (svd F).S i + (svd F).S j) :
    IsGradient 3 (fun F => (fixedCorotated mu lam).energy 3 (svd F)) F ((fixedCorotated mu lam).piola 3 (svd F)) := by
  intro G
  obtain ⟨m, hm, hp⟩ : ∃ m : ℝ, 0 < m ∧ ∀ i j, i < j → j < 3 → m ≤ (svd F).S i + (svd F).S j := by
    refine ⟨min ((svd F).S 0 + (svd F).S 1) (min ((svd F).S 0 + (svd F).S 2) ((svd F).S 1 + (svd F).S 2)),
      lt_min (hF 0 1 (by norm_num) (by norm_num)) (lt_min (hF 0 2 (by norm_num) (by norm_num)) (hF 1 2 (by norm_num) (by norm_num))), ?_⟩
    intro i j hij hj
    interval_cases j
    · omega
    · interval_cases i; exact min_le_left _ _
    · interval_cases i
      · exact (min_le_right _ _).trans (min_le_left _ _)
      · exact (min_le_right _ _).trans (min_le_right _ _)
  refine fixedCorotated_gradient_aux mu lam (Or.inr rfl) hs (det_line3 _ _) (nuc_deriv hs (fun F Q hQ => ?_) hm (fun Q hQ => rot_le3 hQ hp) G)
  have := rot_le3 (m := 0) hQ (hb F)
  simpa using this

/-- Two dimensions. -/
theorem fixedCorotated_gradient2 (mu lam : ℝ) {svd : Mx → Svd} (hs : ∀ F, IsSvd 2 F (svd F)) (hb : ∀ F, 0 ≤ (svd F).S 0 + (svd F).S 1) {F : Mx}
    (hF : 0 < (svd F).S 0 + (svd F).S 1) :
    IsGradient 2 (fun F => (fixedCorotated mu lam).energy 2 (svd F)) F ((fixedCorotated mu lam).piola 2 (svd F)) := by
  intro G
  refine fixedCorotated_gradient_aux mu lam (Or.inl rfl) hs (det_line2 _ _) (nuc_deriv hs (fun F Q hQ => ?_) hF (fun Q hQ => rot_le2 hQ (le_refl _)) G)
  have := rot_le2 (m := 0) hQ (hb F)
  simpa using this

/-! ## Projection -/

/-- With `project_SPD` the tangent of every model is positive semidefinite, in three dimensions. -/
theorem tangent_psd3 (m : Iso) (clamp : ℝ) {eps : ℝ} (he : 0 ≤ eps) (d : Svd) (G : Mx) :
    0 ≤ ∑ i : Fin 3, ∑ j : Fin 3, (∑ r : Fin 3, ∑ s : Fin 3, m.tangent clamp (some eps) 3 d (j * 3 + i) (s * 3 + r) * G r s) * G i j := by
  obtain ⟨A, hA⟩ : ∃ A, A = Eig.makePd 3 eps (Eig.eigen3 eps (m.d2psi 3 d.S)) := ⟨_, rfl⟩
  obtain ⟨B, hB⟩ : ∃ B : Nat → Mx, B = fun i => Eig.makePd 2 eps (Eig.eigen2 eps (computeBij clamp 3 d.S (m.dpsi 3 d.S) (m.bij 3 d.S) i)) := ⟨_, rfl⟩
  have hApd : (mx 3 A).PosSemidef := hA ▸ Eig.makePd_psd 3 he _
  have hBpd : ∀ i, (mx 2 (B i)).PosSemidef := fun i => by rw [hB]; exact Eig.makePd_psd 2 he _
  have e : m.tangent clamp (some eps) 3 d = fillSym 3 (entry3 A (B 0) (B 1) (B 2) d.U d.V) := by rw [hA, hB]; rfl
  have sA : ∀ i j, i < 3 → j < 3 → A i j = A j i := fun i j hi hj => by
    have := congrFun (congrFun hApd.1 ⟨j, hj⟩) ⟨i, hi⟩
    simpa [mx] using this
  have sB : ∀ k, B k 0 1 = B k 1 0 := fun k => by
    have := congrFun (congrFun (hBpd k).1 1) 0
    simpa [mx] using this
  have step : ∀ i j : Fin 3, ∑ r : Fin 3, ∑ s : Fin 3, m.tangent clamp (some eps) 3 d (j * 3 + i) (s * 3 + r) * G r s =
      (mx 3 d.U * frame3 A (B 0) (B 1) (B 2) ((mx 3 d.U)ᵀ * mx 3 G * mx 3 d.V) * (mx 3 d.V)ᵀ) i j := fun i j => by
    rw [e, fill_contract 3 _ (entry3_symm sA (sB 0) (sB 1) (sB 2) _ _) G i.2 j.2, contract3]
  simp only [step]
  rw [pull_back, psd_frame3]
  have q3 : ∀ x : Fin 3 → ℝ, 0 ≤ x ⬝ᵥ (mx 3 A *ᵥ x) := fun x => by simpa using hApd.dotProduct_mulVec_nonneg x
  have q2 : ∀ k (x : Fin 2 → ℝ), 0 ≤ x ⬝ᵥ (mx 2 (B k) *ᵥ x) := fun k x => by simpa using (hBpd k).dotProduct_mulVec_nonneg x
  have := q3 ![((mx 3 d.U)ᵀ * mx 3 G * mx 3 d.V) 0 0, ((mx 3 d.U)ᵀ * mx 3 G * mx 3 d.V) 1 1, ((mx 3 d.U)ᵀ * mx 3 G * mx 3 d.V) 2 2]
  have h0 := q2 0 ![((mx 3 d.U)ᵀ * mx 3 G * mx 3 d.V) 0 1, ((mx 3 d.U)ᵀ * mx 3 G * mx 3 d.V) 1 0]
  have h1 := q2 1 ![((mx 3 d.U)ᵀ * mx 3 G * mx 3 d.V) 1 2, ((mx 3 d.U)ᵀ * mx 3 G * mx 3 d.V) 2 1]
  have h2 := q2 2 ![((mx 3 d.U)ᵀ * mx 3 G * mx 3 d.V) 2 0, ((mx 3 d.U)ᵀ * mx 3 G * mx 3 d.V) 0 2]
  positivity

/-- Two dimensions. -/
theorem tangent_psd2 (m : Iso) (clamp : ℝ) {eps : ℝ} (he : 0 ≤ eps) (d : Svd) (G : Mx) :
    0 ≤ ∑ i : Fin 2, ∑ j : Fin 2, (∑ r : Fin 2, ∑ s : Fin 2, m.tangent clamp (some eps) 2 d (j * 2 + i) (s * 2 + r) * G r s) * G i j := by
  obtain ⟨A, hA⟩ : ∃ A, A = Eig.makePd 2 eps (Eig.eigen2 eps (m.d2psi 2 d.S)) := ⟨_, rfl⟩
  obtain ⟨B, hB⟩ : ∃ B : Mx, B = Eig.makePd 2 eps (Eig.eigen2 eps (computeBij clamp 2 d.S (m.dpsi 2 d.S) (m.bij 2 d.S) 0)) := ⟨_, rfl⟩
  have hApd : (mx 2 A).PosSemidef := hA ▸ Eig.makePd_psd 2 he _
  have hBpd : (mx 2 B).PosSemidef := hB ▸ Eig.makePd_psd 2 he _
  have e : m.tangent clamp (some eps) 2 d = fillSym 2 (entry2 A B d.U d.V) := by rw [hA, hB]; rfl
  have sA : A 0 1 = A 1 0 := by
    have := congrFun (congrFun hApd.1 1) 0
    simpa [mx] using this
  have sB : B 0 1 = B 1 0 := by
    have := congrFun (congrFun hBpd.1 1) 0
    simpa [mx] using this
  have step : ∀ i j : Fin 2, ∑ r : Fin 2, ∑ s : Fin 2, m.tangent clamp (some eps) 2 d (j * 2 + i) (s * 2 + r) * G r s =
      (mx 2 d.U * frame2 A B ((mx 2 d.U)ᵀ * mx 2 G * mx 2 d.V) * (mx 2 d.V)ᵀ) i j := fun i j => by
    rw [e, fill_contract 2 _ (entry2_symm sA sB _ _) G i.2 j.2, contract2]
  simp only [step]
  rw [pull_back, psd_frame2]
  have q2 : ∀ x : Fin 2 → ℝ, 0 ≤ x ⬝ᵥ (mx 2 A *ᵥ x) := fun x => by simpa using hApd.dotProduct_mulVec_nonneg x
  have r2 : ∀ x : Fin 2 → ℝ, 0 ≤ x ⬝ᵥ (mx 2 B *ᵥ x) := fun x => by simpa using hBpd.dotProduct_mulVec_nonneg x
  have := q2 ![((mx 2 d.U)ᵀ * mx 2 G * mx 2 d.V) 0 0, ((mx 2 d.U)ᵀ * mx 2 G * mx 2 d.V) 1 1]
  have h0 := r2 ![((mx 2 d.U)ᵀ * mx 2 G * mx 2 d.V) 0 1, ((mx 2 d.U)ᵀ * mx 2 G * mx 2 d.V) 1 0]
  positivity

/-! ## Invariants -/

/-- Gradient and Hessian of the second invariant. -/
theorem i2_derivatives (n : Nat) (F : Mx) :
    IsGradient n (i2 n) F (fun i j => i2Grad n F (j * n + i)) ∧ IsDerivative n (fun F i j => i2Grad n F (j * n + i)) F (i2Hess n) := by
  refine ⟨fun G => (i2_line n F G).congr_deriv ?_, fun G i hi j hj => ?_⟩
  · simp only [inner, Finset.mul_sum]
    exact Finset.sum_congr rfl fun i _ => Finset.sum_congr rfl fun j _ => by rw [i2Grad_at n F i.2]; ring
  · rw [i2Hess_contract n G hi hj]
    simp only [i2Grad_at n _ hi]
    exact lin_deriv (2 * F i j) (2 * G i j) 0 fun y => by simp only [line]; ring

/-- Gradient and Hessian of the determinant. -/
theorem i3_derivatives {n : Nat} (hn : n = 2 ∨ n = 3) (F : Mx) :
    IsGradient n (i3 n) F (fun i j => i3Grad n F (j * n + i)) ∧ IsDerivative n (fun F i j => i3Grad n F (j * n + i)) F (i3Hess n F) :=
  ⟨fun G => i3_line hn F G, fun G _ hi _ hj => i3Mat_line hn F G hi hj⟩

/-- In two dimensions the code reads a third column, whatever the matrix is. -/
theorem i3_columns_violated (F : Mx) : i3Columns 2 F = none ∧ i3Columns 1 F = none ∧ (i3Columns 3 F).isSome := ⟨rfl, rfl, rfl⟩

/-- The stable Neo-Hookean model: for all matrices, and whatever the first invariant and its derivatives are. -/
theorem stableNeoHookean_derivatives (mu lam : ℝ) {n : Nat} (hn : n = 2 ∨ n = 3) (i1 : Mx → ℝ) (g1 : Mx → Store ℝ) (h1 : Mx) (F : Mx) :
    IsGradient n (fun F => (stableNeoHookean mu lam).energy n (i1 F) F) F ((stableNeoHookean mu lam).piola n (i1 F) (g1 F) F) ∧
      IsDerivative n (fun F => (stableNeoHookean mu lam).piola n (i1 F) (g1 F) F) F ((stableNeoHookean mu lam).tangent n (i1 F) (g1 F) h1 F) := by
  constructor
  · refine inv_gradient hn (c := 1 / 2 * mu) (φ := fun J => -(1 / 2 * mu * 3) - mu * (J - 1) + 1 / 2 * lam * (J - 1) * (J - 1)) ?_ ?_ ?_ _ ?_
    · intro I; simp only [stableNeoHookean]; ring
    · intro I; simp [stableNeoHookean]
    · intro I; simp [stableNeoHookean]
    · refine (quad_deriv (-(1 / 2 * mu * 3) + mu + 1 / 2 * lam) (-mu - lam) (1 / 2 * lam) _ fun y => by ring).congr_deriv ?_
      simp only [stableNeoHookean, invariants]
      norm_num
      ring
  · refine inv_tangent hn (c := 1 / 2 * mu) (φ' := fun J => -mu + lam * (J - 1)) ?_ ?_ ?_ ?_ ?_ _ _ ?_
    · intro I; simp [stableNeoHookean]
    · intro I; simp [stableNeoHookean]
    · intro I; simp [stableNeoHookean]
    · intro I; simp [stableNeoHookean]
    · intro I; simp [stableNeoHookean]
    · refine (lin_deriv (-mu - lam) lam _ fun y => by ring).congr_deriv ?_
      simp [stableNeoHookean]

/-- The Neo-Hookean model in terms of invariants, for matrices with a positive determinant. -/
theorem neoHookeanInvariant_derivatives (mu lam : ℝ) {n : Nat} (hn : n = 2 ∨ n = 3) (i1 : Mx → ℝ) (g1 : Mx → Store ℝ) (h1 : Mx) {F : Mx} (hF : 0 < (mx n F).det) :
    IsGradient n (fun F => (neoHookeanInvariant mu lam).energy n (i1 F) F) F ((neoHookeanInvariant mu lam).piola n (i1 F) (g1 F) F) ∧
      IsDerivative n (fun F => (neoHookeanInvariant mu lam).piola n (i1 F) (g1 F) F) F ((neoHookeanInvariant mu lam).tangent n (i1 F) (g1 F) h1 F) := by
  rw [← i3_det (by omega)] at hF
  have hl := Real.hasDerivAt_log hF.ne'
  constructor
  · refine inv_gradient hn (c := 1 / 2 * mu) (φ := fun J => -(1 / 2 * mu * 3) - (mu - 1 / 2 * lam * Real.log J) * Real.log J) ?_ ?_ ?_ _ ?_
    · intro I; simp only [neoHookeanInvariant]; ring
    · intro I; simp [neoHookeanInvariant]
    · intro I; simp [neoHookeanInvariant]; ring
    · refine ((((hl.const_mul (1 / 2 * lam)).const_sub mu).mul hl).const_sub (-(1 / 2 * mu * 3))).congr_deriv ?_
      simp only [neoHookeanInvariant, invariants]
      norm_num
      field_simp
      ring
  · refine inv_tangent hn (c := mu * (1 / 2)) (φ' := fun J => (lam * Real.log J - mu) / J) ?_ ?_ ?_ ?_ ?_ _ _ ?_
    · intro I; simp [neoHookeanInvariant]
    · intro I; simp [neoHookeanInvariant]
    · intro I; simp [neoHookeanInvariant]
    · intro I; simp [neoHookeanInvariant]
    · intro I; simp [neoHookeanInvariant]
    · refine (((hl.const_mul lam).sub_const mu).div (hasDerivAt_id _) hF.ne').congr_deriv ?_
      simp only [neoHookeanInvariant, invariants, id]
      norm_num
      field_simp
      ring

/-- The two forms of the Neo-Hookean model agree in three dimensions; in two the energies differ by a constant. -/
theorem neoHookean_forms (mu lam : ℝ) {n : Nat} (hn : n ≤ 3) {F : Mx} {d : Svd} (h : IsSvd n F d) (i1 : ℝ) :
    (neoHookeanInvariant mu lam).energy n i1 F = (neoHookean mu lam).energy n d - 1 / 2 * mu * (3 - n) := by
  rw [nh_energy mu lam h]
  simp only [Inv.energy, neoHookeanInvariant, invariants]
  norm_num
  rw [i2_frob, i3_det hn]
  ring

/-! ## With the singular value decomposition of the code, two dimensions -/

/-- Neo-Hookean with `qr_svd`: gradient and tangent. -/
theorem neoHookean_code2 (mu lam : ℝ) {F : Mx} (hF : 0 < (mx 2 F).det) {clamp : ℝ} (hc : 0 < clamp) (hp : clamp ≤ (codeSvd2 F).S 0 + (codeSvd2 F).S 1) :
    IsGradient 2 (fun F => (neoHookean mu lam).energy 2 (codeSvd2 F)) F ((neoHookean mu lam).piola 2 (codeSvd2 F)) ∧
      IsDerivative 2 (fun F => (neoHookean mu lam).piola 2 (codeSvd2 F)) F ((neoHookean mu lam).tangent clamp none 2 (codeSvd2 F)) :=
  ⟨neoHookean_gradient mu lam (fun F _ => (codeSvd2_svd F).1) hF, neoHookean_tangent2 mu lam hc (fun F _ => (codeSvd2_svd F).1) hF hp⟩

/-- Fixed corotated with `qr_svd`: the gradient for every matrix that is not inverted or has two different singular values. -/
theorem fixedCorotated_code2 (mu lam : ℝ) {F : Mx} (hF : 0 < (codeSvd2 F).S 0 + (codeSvd2 F).S 1) :
    IsGradient 2 (fun F => (fixedCorotated mu lam).energy 2 (codeSvd2 F)) F ((fixedCorotated mu lam).piola 2 (codeSvd2 F)) :=
  fixedCorotated_gradient2 mu lam (fun F => (codeSvd2_svd F).1) (fun F => by linarith [neg_le_of_abs_le (codeSvd2_svd F).2]) hF

/-- The condition holds for every matrix with positive determinant. -/
theorem code2_sum_pos {F : Mx} (hF : 0 < (mx 2 F).det) : 0 < (codeSvd2 F).S 0 + (codeSvd2 F).S 1 := by
  obtain ⟨h, ho⟩ := codeSvd2_svd F
  have hd := h.det
  rw [hd, prod_two] at hF
  have h0 : 0 ≤ (codeSvd2 F).S 0 := (abs_nonneg _).trans ho
  have h1 : 0 < (codeSvd2 F).S 1 := by
    by_contra hn
    nlinarith
  linarith

/-- Three dimensions: a function as the theorems ask for exists, and there are matrices for which it gives positive sums. -/
example : ∃ svd : Mx → Svd, (∀ F, IsSvd 3 F (svd F)) ∧ (∀ F i j, i < j → j < 3 → 0 ≤ (svd F).S i + (svd F).S j) ∧
    ∀ F, 0 < (mx 3 F).det → ∀ i j, i < j → j < 3 → 0 < (svd F).S i + (svd F).S j := by
  choose svd h1 h2 h3 using exists_svd3
  refine ⟨svd, h1, fun F i j hij hj => ?_, fun F hF i j hij hj => ?_⟩
  · have := h2 F; have := h3 F; have := neg_le_of_abs_le (h3 F); have := le_of_abs_le (h3 F)
    have : i < 2 := by omega
    interval_cases j <;> interval_cases i <;> first | omega | linarith
  · have hs : ∀ k < 3, (svd F).S k ≠ 0 := fun k hk => (h1 F).ne hF.ne' ⟨k, hk⟩
    have := h2 F; have := h3 F; have a := neg_le_of_abs_le (h3 F); have b := le_of_abs_le (h3 F)
    have hp : 0 < (svd F).S 0 * (svd F).S 1 * (svd F).S 2 := by rw [(h1 F).det, prod_three] at hF; exact hF
    have p1 : 0 < (svd F).S 1 := lt_of_le_of_ne ((abs_nonneg _).trans (h3 F)) (hs 1 (by norm_num)).symm
    have p0 : 0 < (svd F).S 0 := by linarith [h2 F]
    have p2 : 0 < (svd F).S 2 := by
      by_contra hn
      nlinarith [mul_pos p0 p1]
    have : i < 2 := by omega
    interval_cases j <;> interval_cases i <;> first | omega | linarith

/-! ## The projected tangent of the stable Neo-Hookean model -/

/-- It is positive semidefinite, whatever the decompositions return. -/
theorem stableSpd_psd (mu lam : ℝ) (eig : Mx → Eig.Dec) (F : Mx) (d : Svd) (G : Mx) :
    0 ≤ ∑ i : Fin 3, ∑ j : Fin 3, (∑ r : Fin 3, ∑ s : Fin 3, stableSpd mu lam eig F d (j * 3 + i) (s * 3 + r) * G r s) * G i j := by
  have e : ∀ p q, stableSpd mu lam eig F d p q = _ := fun p q => spd_sum 9 _ _ p q
  have c := fun i j : Fin 3 => spd_contract d.U d.V (eig (stretching mu lam (i3 3 F) d.S)).E
    (fun k => |spdValues mu lam (i3 3 F) d.S (eig (stretching mu lam (i3 3 F) d.S)).e k|) G i j
  simp only [e, c]
  rw [pull_back, Matrix.transpose_sum, Matrix.sum_mul, Matrix.trace_sum]
  refine Finset.sum_nonneg fun k _ => ?_
  rw [Matrix.transpose_smul, Matrix.smul_mul, Matrix.trace_smul, smul_eq_mul, mul_assoc]
  exact mul_nonneg (abs_nonneg _) (mul_self_nonneg _)

/-- If none of the nine values is negative, it is the derivative of the stress: nothing is changed. -/
theorem stableSpd_exact (mu lam : ℝ) {eig : Mx → Eig.Dec} (i1 : Mx → ℝ) (g1 : Mx → Store ℝ) {F : Mx} {d : Svd} (h : IsSvd 3 F d) (hd : (mx 3 F).det ≠ 0)
    (hE : let A := stretching mu lam (i3 3 F) d.S
      mx 3 (eig A).E * (mx 3 (eig A).E)ᵀ = 1 ∧ mx 3 A * mx 3 (eig A).E = mx 3 (eig A).E * diagonal fun i : Fin 3 => (eig A).e i)
    (hv : ∀ k < 9, 0 ≤ spdValues mu lam (i3 3 F) d.S (eig (stretching mu lam (i3 3 F) d.S)).e k) :
    IsDerivative 3 (fun F => (stableNeoHookean mu lam).piola 3 (i1 F) (g1 F) F) F (stableSpd mu lam eig F d) := by
  intro G i hi j hj
  have ht := (stableNeoHookean_derivatives mu lam (Or.inr rfl) i1 g1 (fun _ _ => 0) F).2 G i hi j hj
  refine ht.congr_deriv ?_
  have e : ∀ p q, stableSpd mu lam eig F d p q = _ := fun p q => spd_sum 9 _ _ p q
  have e' : ∀ p q, stableSpd mu lam eig F d p q = ∑ k : Fin 9, spdValues mu lam (i3 3 F) d.S (eig (stretching mu lam (i3 3 F) d.S)).e k
      * (spdVector d.U d.V (eig (stretching mu lam (i3 3 F) d.S)).E k p * spdVector d.U d.V (eig (stretching mu lam (i3 3 F) d.S)).E k q) := fun p q => by
    rw [e]
    exact Finset.sum_congr rfl fun k _ => by rw [abs_of_nonneg (hv k k.2)]
  simp only [e']
  have hJ : i3 3 F = d.S 0 * d.S 1 * d.S 2 := by rw [i3_det (le_refl 3), h.det, prod_three]
  rw [stable_tangent mu lam _ _ _ F G ⟨i, hi⟩ ⟨j, hj⟩, spd_contract d.U d.V _ _ G ⟨i, hi⟩ ⟨j, hj⟩, hJ]
  rw [hJ] at hE
  have hE' : mx 3 (stretching mu lam (d.S 0 * d.S 1 * d.S 2) d.S)
      = mx 3 (eig (stretching mu lam (d.S 0 * d.S 1 * d.S 2) d.S)).E
        * diagonal (fun i : Fin 3 => (eig (stretching mu lam (d.S 0 * d.S 1 * d.S 2) d.S)).e i) * (mx 3 (eig (stretching mu lam (d.S 0 * d.S 1 * d.S 2) d.S)).E)ᵀ := by
    rw [← hE.2, Matrix.mul_assoc, hE.1, Matrix.mul_one]
  rw [spd_frame mu lam (fun k hk => h.ne hd ⟨k, hk⟩) hE', stable_back mu lam _ h.rotU h.rotV]
  have eG : mx 3 d.U * ((mx 3 d.U)ᵀ * mx 3 G * mx 3 d.V) * (mx 3 d.V)ᵀ = mx 3 G := by
    calc _ = (mx 3 d.U * (mx 3 d.U)ᵀ) * mx 3 G * (mx 3 d.V * (mx 3 d.V)ᵀ) := by simp only [Matrix.mul_assoc]
      _ = _ := by rw [h.rotU.1, h.rotV.1, Matrix.one_mul, Matrix.mul_one]
  rw [eG, ← h.eq]

/-- The hypotheses are met at the identity: the stretching matrix has the entries mu + lam and lam - mu. -/
example : ∃ (F : Mx) (d : Svd) (eig : Mx → Eig.Dec), IsSvd 3 F d ∧ (mx 3 F).det ≠ 0 ∧
    (let A := stretching 1 1 (i3 3 F) d.S; mx 3 (eig A).E * (mx 3 (eig A).E)ᵀ = 1 ∧ mx 3 A * mx 3 (eig A).E = mx 3 (eig A).E * diagonal fun i : Fin 3 => (eig A).e i) ∧
    ∀ k < 9, 0 ≤ spdValues 1 1 (i3 3 F) d.S (eig (stretching 1 1 (i3 3 F) d.S)).e k := by
  let I : Mx := fun i j => if i = j then 1 else 0
  have hI : mx 3 I = 1 := by ext i j; simp [mx, I, Matrix.one_apply, Fin.ext_iff]
  have hr : IsRot (1 : Matrix (Fin 3) (Fin 3) ℝ) := ⟨by simp, by simp⟩
  have h3 : i3 3 I = 1 := by rw [i3_det (le_refl 3), hI, Matrix.det_one]
  refine ⟨I, ⟨I, fun _ => 1, I⟩, fun _ => { e := fun _ => 2, E := I }, ⟨by rw [hI]; exact hr, by rw [hI]; exact hr, by rw [hI]; simp⟩, by rw [hI]; simp, ?_, ?_⟩
  · simp only [h3, hI]
    refine ⟨by simp, ?_⟩
    ext i j; fin_cases i <;> fin_cases j <;> simp [mx, stretching, Rot.set] <;> norm_num
  · intro k hk
    simp only [h3]
    interval_cases k <;> simp [spdValues, Mat.write]

/-- At a matrix with a zero singular value the stretching matrix divides by zero: the limit of the entry is mu + lam (S1 S2)². -/
theorem stretching_violated : ∃ S : Store ℝ, ¬ Filter.Tendsto (fun t => stretching 1 1 (t * S 1 * S 2) (upd S 0 t) 0 0) (nhdsWithin 0 {0}ᶜ)
    (nhds (stretching 1 1 (S 0 * S 1 * S 2) S 0 0)) := by
  refine ⟨fun k => if k = 0 then 0 else 1, fun hc => ?_⟩
  have e : (fun t => stretching 1 1 (t * 1 * 1) (upd (fun k => if k = 0 then 0 else 1) 0 t) 0 0) =ᶠ[nhdsWithin 0 {0}ᶜ] fun _ => (2 : ℝ) := by
    filter_upwards [self_mem_nhdsWithin] with t ht
    have ht : t ≠ 0 := ht
    simp [stretching, Rot.set, upd]
    field_simp
    norm_num
  have h2 := (Filter.tendsto_congr' e).1 (by simpa using hc)
  have := tendsto_nhds_unique h2 tendsto_const_nhds
  simp [stretching, Rot.set] at this

/-! ## AnisotropicArap -/

/-- The gradient of the energy is twice what the code returns as the stress. -/
theorem arap_gradient_partial (mu s : ℝ) (n : Nat) (a : Store ℝ) {F : Mx} (hF : i5 n F a ≠ 0) :
    IsGradient n (fun F => arapPsi mu s n F a) F (fun i j => 2 * arapPiola mu s n F a i j) := by
  intro G
  have hz : line F G 0 = F := by funext i j; simp [line]
  have hpos : 0 ≤ i5 n F a := by rw [i5_sum]; exact Finset.sum_nonneg fun i _ => mul_self_nonneg _
  have hsq : √(i5 n F a) ≠ 0 := (Real.sqrt_pos.2 (lt_of_le_of_ne hpos (Ne.symm hF))).ne'
  have h5 := (i5_line n F G a).sqrt (by rw [hz]; exact hF)
  have h := (((h5.sub_const s).const_mul (1 / 2 * mu)).mul (h5.sub_const s))
  refine h.congr_deriv ?_
  simp only [hz, inner, arapPiola_at]
  have e : ∑ i : Fin n, ∑ j : Fin n, 2 * (1 / 2 * mu * (1 - s / √(i5 n F a)) * stretch n F a i * a j) * G i j
      = mu * (1 - s / √(i5 n F a)) * ∑ i : Fin n, stretch n F a i * stretch n G a i := by
    rw [Finset.mul_sum]
    refine Finset.sum_congr rfl fun i _ => ?_
    rw [show stretch n G a i = ∑ j : Fin n, G i j * a j from rfl, Finset.mul_sum, Finset.mul_sum]
    exact Finset.sum_congr rfl fun j _ => by ring
  rw [e]
  generalize ∑ i : Fin n, stretch n F a i * stretch n G a i = g
  field_simp
  ring

/-- So the code's stress is not the gradient: with F = 2, the fibre along the first axis. -/
theorem arap_gradient_violated :
    let F : Mx := fun i j => if i = j then 2 else 0
    let a : Store ℝ := fun i => if i = 0 then 1 else 0
    ¬ IsGradient 3 (fun F => arapPsi 1 1 3 F a) F (arapPiola 1 1 3 F a) := by
  intro F a hc
  have h5 : i5 3 F a = 4 := by
    rw [i5_sum]; simp [stretch, F, a]; norm_num
  have h := arap_gradient_partial 1 1 3 a (F := F) (by rw [h5]; norm_num)
  have hu := (hc F).unique (h F)
  have hs : √(4 : ℝ) = 2 := by rw [show (4 : ℝ) = 2 ^ 2 by norm_num]; exact Real.sqrt_sq (by norm_num)
  simp only [inner, arapPiola_at, h5, hs, Fin.sum_univ_three, stretch] at hu
  simp [F, a] at hu
  norm_num at hu

end Verif.Elastic
