import Verif.Proof.KrylovCr
import Mathlib.Tactic.FinCases
import Mathlib.Tactic.NormNum
import Mathlib.Tactic.NormNum.BigOperators
import Mathlib.Data.Fin.VecNotation

/-!
C80: the conjugate gradient and conjugate residual solvers.
-/
namespace Verif.Krylov

variable {n : Nat} {A P M : Vec n →ₗ[ℝ] Vec n}

/-- Conjugate gradients: no division by zero; the number of iterations is at most the number of free dimensions; fixed values are unchanged; if the loop
ends before `maxIters`, or `maxIters` is at least the number of free dimensions, the residual is within the tolerance. -/
theorem cg_solves (g : Good A P M) {tol relTol : ℝ} (ht : 0 ≤ tol) (hr : 0 ≤ relTol) (maxIters : Nat) (x b : Vec n) :
    ∃ k x', cgSolve (sys A P M) maxIters tol relTol x b = some (k, x') ∧ k ≤ maxIters ∧ k ≤ Module.finrank ℝ (LinearMap.range P) ∧ P (x' - x) = x' - x ∧
      (k < maxIters ∨ Module.finrank ℝ (LinearMap.range P) ≤ maxIters →
        Real.sqrt (resM A P M b x') ≤ tol ∧ Real.sqrt (resM A P M b x') ≤ relTol * Real.sqrt (resM A P M b x)) := by
  have h0 : (cgInit (sys A P M) x b).zTrk = resM A P M b x := rfl
  have htol : 0 ≤ cgTol tol relTol (cgInit (sys A P M) x b) := le_min (mul_nonneg hr (Real.sqrt_nonneg _)) ht
  obtain ⟨m, hm, e, h1, h2⟩ := cgLoop_seq g x b htol maxIters 0 (by omega)
  simp only [Nat.zero_add] at e h1 h2
  have nz : ∀ i < m, (cgSeq A P M x b i).zTrk ≠ 0 := fun i hi => (Real.sqrt_pos.1 (htol.trans_lt (h1 i hi))).ne'
  have hc := cg_card g x b m nz
  have I := cgInv g x b m
  refine ⟨m, (cgSeq A P M x b m).x, ?_, hm, hc, I.Px, ?_⟩
  · have e' : cgLoop (sys A P M) (cgTol tol relTol (cgInit (sys A P M) x b)) maxIters (cgInit (sys A P M) x b) = some (m, cgSeq A P M x b m) := e
    unfold cgSolve
    simp only [e', Option.map_some]
  · intro hh
    have hz : resM A P M b (cgSeq A P M x b m).x = (cgSeq A P M x b m).zTrk := by rw [I.zT, I.res]; rfl
    have key : Real.sqrt (cgSeq A P M x b m).zTrk ≤ cgTol tol relTol (cgInit (sys A P M) x b) := by
      rcases h2 with h2 | h2
      · by_contra hc2
        have nz' : ∀ i < m + 1, (cgSeq A P M x b i).zTrk ≠ 0 := by
          intro i hi
          rcases Nat.lt_succ_iff_lt_or_eq.1 hi with hi | rfl
          · exact nz i hi
          · exact (Real.sqrt_pos.1 (htol.trans_lt (not_le.1 hc2))).ne'
        have := cg_card g x b (m + 1) nz'
        omega
      · exact h2
    rw [hz]
    unfold cgTol at key
    rw [h0] at key
    exact ⟨key.trans (min_le_right _ _), key.trans (min_le_left _ _)⟩

/-- With tolerance zero and enough iterations the result of conjugate gradients is the exact solution, and minimizes the energy among all vectors with the given
fixed values. -/
theorem cg_exact (g : Good A P M) {relTol : ℝ} (hr : 0 ≤ relTol) (maxIters : Nat) (hm : Module.finrank ℝ (LinearMap.range P) ≤ maxIters) (x b : Vec n) :
    ∃ k x', cgSolve (sys A P M) maxIters 0 relTol x b = some (k, x') ∧ resid A P b x' = 0 ∧ ∀ w, P w = w → energy A b x' ≤ energy A b (x + w) := by
  obtain ⟨k, x', e, _, _, hx, h⟩ := cg_solves g le_rfl hr maxIters x b
  have h0 := (h (Or.inr hm)).1
  have hz : resid A P b x' = 0 := by
    by_contra hne
    have := g.posM (resid A P b x') (g.idemP _) hne
    exact absurd (Real.sqrt_pos.2 this) (not_lt.2 h0)
  refine ⟨k, x', e, hz, fun w hw => ?_⟩
  have : x + w = x' + (w - (x' - x)) := by module
  rw [this]
  refine energy_sub g b x' _ (by rw [map_sub, hw, hx]) ?_
  have : P (b - A x') = 0 := hz
  rw [this]; simp [dot]

/-- After k iterations the result of conjugate gradients minimizes the energy over the Krylov space. -/
theorem cg_optimal (g : Good A P M) {tol relTol : ℝ} (ht : 0 ≤ tol) (hr : 0 ≤ relTol) (maxIters : Nat) (x b : Vec n) {k : Nat} {x' : Vec n}
    (h : cgSolve (sys A P M) maxIters tol relTol x b = some (k, x')) (w : Vec n) (hw : w ∈ krylov A P M (resid A P b x) k) :
    energy A b x' ≤ energy A b (x + w) := by
  have htol : 0 ≤ cgTol tol relTol (cgInit (sys A P M) x b) := le_min (mul_nonneg hr (Real.sqrt_nonneg _)) ht
  obtain ⟨m, hm, e, h1, h2⟩ := cgLoop_seq g x b htol maxIters 0 (by omega)
  simp only [Nat.zero_add] at e h1 h2
  have e' : cgLoop (sys A P M) (cgTol tol relTol (cgInit (sys A P M) x b)) maxIters (cgInit (sys A P M) x b) = some (m, cgSeq A P M x b m) := e
  unfold cgSolve at h
  simp only [e', Option.map_some, Option.some.injEq, Prod.mk.injEq] at h
  obtain ⟨rfl, rfl⟩ := h
  exact cg_optimal_seq g x b m (fun i hi => (Real.sqrt_pos.1 (htol.trans_lt (h1 i hi))).ne') w hw

/-- Conjugate residuals, if A maps the free vectors to free vectors (in particular if nothing is fixed): the number of iterations is at most the number of free
dimensions, fixed values are unchanged, and the residual is within the tolerance unless `maxIters` ended the loop. -/
theorem cr_solves_partial (g : Good A P M) (hA : ∀ u, P u = u → P (A u) = A u) {tol : ℝ} (ht : 0 ≤ tol) (maxIters : Nat) (x b : Vec n) :
    let y := crSolve (sys A P M) maxIters tol x b
    y.1 ≤ maxIters ∧ y.1 ≤ Module.finrank ℝ (LinearMap.range P) ∧ P (y.2.1 - x) = y.2.1 - x ∧
      (y.1 < maxIters ∨ Module.finrank ℝ (LinearMap.range P) ≤ maxIters →
        dot (resid A P b y.2.1) (resid A P b y.2.1) ≤ tol ∧ dot (resid A P b y.2.1) (resid A P b y.2.1) ≤ tol * dot b b) := by
  have htol : 0 ≤ crTol tol b := by
    unfold crTol; split_ifs
    · exact mul_nonneg ht (dot_self_nonneg b)
    · exact ht
  have hle : crTol tol b ≤ tol ∧ crTol tol b ≤ tol * dot b b := by
    unfold crTol; split_ifs with h
    · exact ⟨h.le, le_rfl⟩
    · exact ⟨le_rfl, not_lt.1 h⟩
  obtain ⟨m, hm, e1, e2, e3, e4⟩ := crLoop_seq g hA x b (crTol tol b) maxIters 0 (by omega)
  simp only [Nat.zero_add] at e2 e3 e4
  have hc := cr_card g hA x b m e3
  have I := crInv g hA x b m
  have f1 : (crSolve (sys A P M) maxIters tol x b).1 = m := e1
  have f2 : (crSolve (sys A P M) maxIters tol x b).2.1 = (crSeq A P M x b m).x := e2
  simp only [f1, f2]
  refine ⟨hm, hc, I.Px, fun hh => ?_⟩
  have key : dot (crSeq A P M x b m).rr (crSeq A P M x b m).rr ≤ crTol tol b := by
    have zero : rho A P (crSeq A P M x b m) = 0 → dot (crSeq A P M x b m).rr (crSeq A P M x b m).rr ≤ crTol tol b := by
      intro z
      rw [rho_zero g hA x b m z]; simpa [dot] using htol
    rcases e4 with e4 | e4 | e4
    · by_cases z : rho A P (crSeq A P M x b m) = 0
      · exact zero z
      · have := cr_card g hA x b (m + 1) (by
          intro i hi
          rcases Nat.lt_succ_iff_lt_or_eq.1 hi with hi | rfl
          · exact e3 i hi
          · exact z)
        omega
    · exact e4
    · exact zero e4
  rw [I.res] at key
  exact ⟨key.trans hle.1, key.trans hle.2⟩

/-- Under the same condition the result minimizes the residual over the Krylov space. -/
theorem cr_optimal_partial (g : Good A P M) (hA : ∀ u, P u = u → P (A u) = A u) (tol : ℝ) (maxIters : Nat) (x b w : Vec n)
    (hw : w ∈ krylov A P M (resid A P b x) (crSolve (sys A P M) maxIters tol x b).1) :
    resM A P M b (crSolve (sys A P M) maxIters tol x b).2.1 ≤ resM A P M b (x + w) := by
  obtain ⟨m, hm, e1, e2, e3, e4⟩ := crLoop_seq g hA x b (crTol tol b) maxIters 0 (by omega)
  simp only [Nat.zero_add] at e2 e3 e4
  have f1 : (crSolve (sys A P M) maxIters tol x b).1 = m := e1
  have f2 : (crSolve (sys A P M) maxIters tol x b).2.1 = (crSeq A P M x b m).x := e2
  rw [f1] at hw
  rw [f2]
  exact cr_optimal_seq g hA x b m e3 w hw

/-! Systems for the examples and counterexamples. -/

/-- The matrix 2 0 1, 0 1 0, 1 0 2. -/
def wA : Vec 3 →ₗ[ℝ] Vec 3 where
  toFun u := ![2 * u 0 + u 2, u 1, u 0 + 2 * u 2]
  map_add' u v := by ext i; fin_cases i <;> simp <;> ring
  map_smul' m v := by ext i; fin_cases i <;> simp <;> ring

/-- The last value is fixed. -/
def wP : Vec 3 →ₗ[ℝ] Vec 3 where
  toFun u := ![u 0, u 1, 0]
  map_add' u v := by ext i; fin_cases i <;> simp
  map_smul' m v := by ext i; fin_cases i <;> simp

theorem wA_apply (u : Vec 3) : wA u = ![2 * u 0 + u 2, u 1, u 0 + 2 * u 2] := rfl
theorem wP_apply (u : Vec 3) : wP u = ![u 0, u 1, 0] := rfl
theorem dot3 (u v : Vec 3) : dot u v = u 0 * v 0 + u 1 * v 1 + u 2 * v 2 := Fin.sum_univ_three _

theorem cons_two (a b c : ℝ) : (![a, b, c] : Vec 3) 2 = c := rfl

theorem pos3 {u : Vec 3} (h : u ≠ 0) : 0 < u 0 ^ 2 + u 1 ^ 2 + u 2 ^ 2 := by
  by_contra hc
  apply h
  have h0 := sq_nonneg (u 0); have h1 := sq_nonneg (u 1); have h2 := sq_nonneg (u 2)
  have e0 : u 0 = 0 := pow_eq_zero_iff (two_ne_zero) |>.1 (by linarith)
  have e1 : u 1 = 0 := pow_eq_zero_iff (two_ne_zero) |>.1 (by linarith)
  have e2 : u 2 = 0 := pow_eq_zero_iff (two_ne_zero) |>.1 (by linarith)
  ext i; fin_cases i <;> assumption

/-- Without fixed values. -/
theorem good_free : Good wA LinearMap.id LinearMap.id where
  symA u v := by simp only [wA_apply, dot3]; simp; ring
  symP u v := rfl
  idemP u := rfl
  posA u _ hu := by
    have := pos3 hu
    simp only [wA_apply, dot3]; simp
    nlinarith [sq_nonneg (u 0 + u 2)]
  symM u v := rfl
  rangeM u _ := rfl
  posM u _ hu := by have := pos3 hu; simp only [dot3, LinearMap.id_apply]; nlinarith

/-- With the last value fixed. -/
theorem good_fixed : Good wA wP LinearMap.id where
  symA u v := by simp only [wA_apply, dot3]; simp; ring
  symP u v := by simp only [wP_apply, dot3]; simp
  idemP u := by simp [wP_apply]
  posA u hP hu := by
    have := pos3 hu
    have h2 : u 2 = 0 := by have := congrFun hP 2; simpa [wP_apply] using this.symm
    simp only [wA_apply, dot3]; simp
    rw [h2] at this ⊢
    nlinarith [sq_nonneg (u 0)]
  symM u v := rfl
  rangeM u h := h
  posM u _ hu := by have := pos3 hu; simp only [dot3, LinearMap.id_apply]; nlinarith

example : ∃ k x', cgSolve (sys wA wP LinearMap.id) 3 0 1 ![0, 0, 5] ![1, 1, 0] = some (k, x') ∧ resid wA wP ![1, 1, 0] x' = 0 := by
  obtain ⟨k, x', h1, h2, _⟩ := cg_exact good_fixed zero_le_one 3 ((Submodule.finrank_le _).trans (by simp)) ![0, 0, 5] ![1, 1, 0]
  exact ⟨k, x', h1, h2⟩

example : dot (resid wA LinearMap.id ![1, 1, 0] (crSolve (sys wA LinearMap.id LinearMap.id) 3 (1 / 100) 0 ![1, 1, 0]).2.1)
    (resid wA LinearMap.id ![1, 1, 0] (crSolve (sys wA LinearMap.id LinearMap.id) 3 (1 / 100) 0 ![1, 1, 0]).2.1) ≤ 1 / 100 :=
  ((cr_solves_partial good_free (fun _ _ => rfl) (by norm_num) 3 0 ![1, 1, 0]).2.2.2 (Or.inr ((Submodule.finrank_le _).trans (by simp)))).1

/-- The first product of conjugate residuals is not projected: with a fixed value the solver changes it, though the system is good. -/
theorem cr_fixed_violated : ∃ (A P M : Vec 3 →ₗ[ℝ] Vec 3) (b x : Vec 3), Good A P M ∧
    let y := crSolve (sys A P M) 2 0 x b
    P (y.2.1 - x) ≠ y.2.1 - x := by
  refine ⟨wA, wP, LinearMap.id, ![1, 1, 0], 0, good_fixed, ?_⟩
  have e : (crSolve (sys wA wP LinearMap.id) 2 0 0 ![1, 1, 0]).2.1 2 = -(3 / 11) := by
    norm_num [crSolve, crLoop, crInit, crTol, sys, wA_apply, wP_apply, dot3, comb, cons_two, not_le.2 (zero_lt_one (α := ℝ))]
  intro y h
  have h2 := congrFun h 2
  rw [wP_apply] at h2
  simp only [y, Pi.sub_apply, Pi.zero_apply, cons_two, e] at h2
  norm_num at h2

/-- `solve` leaves the tightened tolerance in the solver: the same call made twice gives two results. -/
theorem cr_tol_violated : ∃ (S : System 1) (b x : Vec 1),
    let y := crSolve S 5 1 x b
    (crSolve S 5 y.2.2 x b).2.1 ≠ y.2.1 := by
  refine ⟨⟨id, id, id⟩, fun _ => 1 / 2, fun _ => 0, ?_⟩
  intro y h
  have d : ∀ u v : Vec 1, dot u v = u 0 * v 0 := fun u v => Fin.sum_univ_one _
  have e1 : y.2.1 0 = 0 ∧ y.2.2 = 1 / 4 := by
    simp only [y]
    norm_num [crSolve, crLoop, crInit, crTol, d, comb]
  have h0 := congrFun h 0
  rw [e1.1, e1.2] at h0
  norm_num [crSolve, crLoop, crInit, crTol, d, comb] at h0

end Verif.Krylov
