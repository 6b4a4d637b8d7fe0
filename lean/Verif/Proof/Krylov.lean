import Verif.Spec.Krylov
import Mathlib.LinearAlgebra.Dimension.Constructions
import Mathlib.LinearAlgebra.LinearIndependent.Lemmas
import Mathlib.Tactic.Linarith
import Mathlib.Tactic.LinearCombination
import Mathlib.Tactic.Module

/-!
The recurrence that both solvers follow, in an arbitrary inner product.
-/
namespace Verif.Krylov

section Recurrence

variable {V : Type*} [AddCommGroup V] [Module ℝ V]

structure Rec (ip : V →ₗ[ℝ] V →ₗ[ℝ] ℝ) (T N : V →ₗ[ℝ] V) (r p : Nat → V) (α β ρ : Nat → ℝ) (K : Nat) : Prop where
  symI : ∀ u v, ip u v = ip v u
  symT : ∀ u v, ip (T u) v = ip u (T v)
  symN : ∀ u v, ip (N u) v = ip u (N v)
  p0 : p 0 = N (r 0)
  hr : ∀ k < K, r (k + 1) = r k - α k • T (p k)
  hp : ∀ k < K, p (k + 1) = N (r (k + 1)) + β k • p k
  hρ : ∀ k ≤ K, ρ k = ip (r k) (N (r k))
  hα : ∀ k < K, ip (r k) (p k) = ρ k → α k * ip (T (p k)) (p k) = ρ k
  hβ : ∀ k < K, β k * ρ k = ρ (k + 1)
  nz : ∀ k < K, ρ k ≠ 0

variable {ip : V →ₗ[ℝ] V →ₗ[ℝ] ℝ} {T N : V →ₗ[ℝ] V} {r p : Nat → V} {α β ρ : Nat → ℝ} {K : Nat}

theorem Rec.mono (h : Rec ip T N r p α β ρ K) {L : Nat} (hL : L ≤ K) : Rec ip T N r p α β ρ L where
  symI := h.symI
  symT := h.symT
  symN := h.symN
  p0 := h.p0
  hr k hk := h.hr k (by omega)
  hp k hk := h.hp k (by omega)
  hρ k hk := h.hρ k (by omega)
  hα k hk := h.hα k (by omega)
  hβ k hk := h.hβ k (by omega)
  nz k hk := h.nz k (by omega)

theorem Rec.conj (h : Rec ip T N r p α β ρ K) : ∀ j ≤ K, ip (r j) (p j) = ρ j ∧
    ∀ i < j, ip (r j) (p i) = 0 ∧ ip (T (p i)) (p j) = 0 ∧ ip (r j) (N (r i)) = 0 := by
  intro j
  induction j using Nat.strong_induction_on with
  | _ j IH =>
  cases j with
  | zero =>
    intro _
    refine ⟨?_, fun i hi => by omega⟩
    rw [h.p0, h.hρ 0 (by omega)]
  | succ j =>
    intro hj
    obtain ⟨ihd, ihc⟩ := IH j (by omega) (by omega)
    have hα := h.hα j (by omega) ihd
    have ha : ∀ i < j + 1, ip (r (j + 1)) (p i) = 0 := by
      intro i hi
      rw [h.hr j (by omega), map_sub, map_smul, LinearMap.sub_apply, LinearMap.smul_apply, smul_eq_mul]
      rcases Nat.lt_succ_iff_lt_or_eq.1 hi with hi | rfl
      · rw [(ihc i hi).1, h.symT, h.symI, (ihc i hi).2.1]; ring
      · rw [ihd, hα]; ring
    have hc : ∀ i < j + 1, ip (r (j + 1)) (N (r i)) = 0 := by
      intro i hi
      cases i with
      | zero => rw [← h.p0]; exact ha 0 hi
      | succ i =>
        have e : N (r (i + 1)) = p (i + 1) - β i • p i := by rw [h.hp i (by omega)]; module
        rw [e, map_sub, map_smul, ha _ hi, ha i (by omega)]; simp
    have hd : ip (r (j + 1)) (p (j + 1)) = ρ (j + 1) := by
      rw [h.hp j (by omega), map_add, map_smul, ha j (by omega), h.hρ _ hj]; simp
    refine ⟨hd, fun i hi => ⟨ha i hi, ?_, hc i hi⟩⟩
    have hαi : α i * ip (T (p i)) (N (r (j + 1))) = ip (r i) (N (r (j + 1))) - ip (r (i + 1)) (N (r (j + 1))) := by
      rw [h.hr i (by omega), map_sub, map_smul, LinearMap.sub_apply, LinearMap.smul_apply, smul_eq_mul]; ring
    have sw : ip (r i) (N (r (j + 1))) = 0 := by rw [← h.symN, h.symI]; exact hc i hi
    have hne : α i ≠ 0 := by
      intro e
      have h1 := h.hα i (by omega) (IH i (by omega) (by omega)).1
      rw [e] at h1
      exact h.nz i (by omega) (by linarith)
    rw [h.hp j (by omega), map_add, map_smul, smul_eq_mul]
    rcases Nat.lt_succ_iff_lt_or_eq.1 hi with hi' | rfl
    · have s2 : ip (r (i + 1)) (N (r (j + 1))) = 0 := by rw [← h.symN, h.symI]; exact hc (i + 1) (by omega)
      rw [sw, s2, sub_zero] at hαi
      rw [(mul_eq_zero.1 hαi).resolve_left hne, (ihc i hi').2.1]; ring
    · rw [sw, ← h.hρ _ hj] at hαi
      have hb := h.hβ i (by omega)
      have : α i * (ip (T (p i)) (N (r (i + 1))) + β i * ip (T (p i)) (p i)) = 0 := by
        linear_combination hαi + β i * hα + hb
      exact (mul_eq_zero.1 this).resolve_left hne

theorem Rec.alpha_ne (h : Rec ip T N r p α β ρ K) {i : Nat} (hi : i < K) : α i ≠ 0 := by
  intro e
  have h1 := h.hα i hi (h.conj i (by omega)).1
  rw [e] at h1
  exact h.nz i hi (by linarith)

/-- The residuals are linearly independent, so there are not more of them than the dimension. -/
theorem Rec.card_le (h : Rec ip T N r p α β ρ K) (W : Submodule ℝ V) [FiniteDimensional ℝ W] (hW : ∀ k < K, r k ∈ W) : K ≤ Module.finrank ℝ W := by
  have li : LinearIndependent ℝ (fun i : Fin K => (⟨r i, hW i i.2⟩ : W)) := by
    rw [Fintype.linearIndependent_iff]
    intro g hg i
    have hg' : ∑ j : Fin K, g j • r j = 0 := by
      have := congrArg (Submodule.subtype W) hg
      simpa using this
    have e := congrArg (fun v => ip v (N (r i))) hg'
    simp only [map_sum, map_smul, LinearMap.sum_apply, LinearMap.smul_apply, smul_eq_mul, map_zero, LinearMap.zero_apply] at e
    rw [Finset.sum_eq_single i] at e
    · rw [← h.hρ i i.2.le] at e
      exact (mul_eq_zero.1 e).resolve_right (h.nz i i.2)
    · intro j _ hj
      have : (j : Nat) ≠ i := fun c => hj (Fin.ext c)
      rcases Nat.lt_or_gt_of_ne this with hlt | hlt
      · rw [← h.symN, h.symI, ((h.conj i i.2.le).2 j hlt).2.2, mul_zero]
      · rw [((h.conj j j.2.le).2 i hlt).2.2, mul_zero]
    · simp
  simpa using li.fintype_card_le_finrank

/-- The span of the first k search directions. -/
def dirs (p : Nat → V) (k : Nat) : Submodule ℝ V := Submodule.span ℝ {v | ∃ i < k, v = p i}

theorem mem_dirs {p : Nat → V} {k i : Nat} (hi : i < k) : p i ∈ dirs p k := Submodule.subset_span ⟨i, hi, rfl⟩

theorem dirs_mono {p : Nat → V} {k l : Nat} (h : k ≤ l) : dirs p k ≤ dirs p l := by
  apply Submodule.span_mono
  rintro v ⟨i, hi, rfl⟩
  exact ⟨i, by omega, rfl⟩

theorem Rec.ortho (h : Rec ip T N r p α β ρ K) : ∀ w ∈ dirs p K, ip (r K) w = 0 := by
  intro w hw
  induction hw using Submodule.span_induction with
  | mem v hv => obtain ⟨i, hi, rfl⟩ := hv; exact ((h.conj K le_rfl).2 i hi).1
  | zero => simp
  | add a b _ _ ha hb => rw [map_add, ha, hb, add_zero]
  | smul c a _ ha => rw [map_smul, ha, smul_zero]

theorem Rec.N_mem (h : Rec ip T N r p α β ρ K) {i : Nat} (hi : i ≤ K) : N (r i) ∈ dirs p (i + 1) := by
  cases i with
  | zero => rw [← h.p0]; exact mem_dirs (by omega)
  | succ i =>
    have e : N (r (i + 1)) = p (i + 1) - β i • p i := by rw [h.hp i (by omega)]; module
    rw [e]
    exact Submodule.sub_mem _ (mem_dirs (by omega)) (Submodule.smul_mem _ _ (mem_dirs (by omega)))

theorem Rec.NT_mem (h : Rec ip T N r p α β ρ K) {k : Nat} (hk : k ≤ K) {w : V} (hw : w ∈ dirs p k) : N (T w) ∈ dirs p (k + 1) := by
  induction hw using Submodule.span_induction with
  | mem v hv =>
    obtain ⟨i, hi, rfl⟩ := hv
    have e : N (T (p i)) = (α i)⁻¹ • (N (r i) - N (r (i + 1))) := by
      rw [h.hr i (by omega), map_sub, map_smul, sub_sub_cancel, smul_smul, inv_mul_cancel₀ (h.alpha_ne (by omega)), one_smul]
    rw [e]
    exact Submodule.smul_mem _ _ (Submodule.sub_mem _ (dirs_mono (by omega) (h.N_mem (by omega))) (dirs_mono (by omega) (h.N_mem (by omega))))
  | zero => simp
  | add a b _ _ ha hb => rw [map_add, map_add]; exact Submodule.add_mem _ ha hb
  | smul c a _ ha => rw [map_smul, map_smul]; exact Submodule.smul_mem _ _ ha

theorem Rec.iter_mem (h : Rec ip T N r p α β ρ K) : ∀ j < K, (fun u => N (T u))^[j] (N (r 0)) ∈ dirs p (j + 1) := by
  intro j
  induction j with
  | zero => intro _; exact h.N_mem (by omega)
  | succ j ih =>
    intro hj
    rw [Function.iterate_succ_apply']
    exact h.NT_mem (by omega) (ih (by omega))

end Recurrence
end Verif.Krylov
