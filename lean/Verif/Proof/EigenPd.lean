import Verif.Proof.Eigen3
import Verif.Props.SmallMat
import Mathlib.Algebra.Order.Star.Real
import Mathlib.LinearAlgebra.Matrix.PosDef

/-! Helper lemmas for C77: two by two matrices, and the projection to positive semidefinite matrices. -/
namespace Verif.Eig

open Matrix
open Verif.Mat (forN forN_succ forN_zero forN_inv Store)
open Verif.Rot (Mx identity mx frobSq)

/-! ## Sums of squares -/

theorem frobSq_smul {n : Nat} (s : ℝ) (M : Matrix (Fin n) (Fin n) ℝ) : frobSq (s • M) = s ^ 2 * frobSq M := by
  simp only [frobSq, Matrix.smul_apply, smul_eq_mul, mul_pow, Finset.mul_sum]

theorem maxAbs_bound (n : Nat) (A : Mx) : (∀ i j, i < n → j < n → |A i j| ≤ maxAbs n A) ∧ (0 < n → ∃ i j, i < n ∧ j < n ∧ maxAbs n A = |A i j|) := by
  constructor
  · intro i j hi hj
    have hp : i * n + j < n * n := by nlinarith
    have := (Mat.infNorm_spec (n * n) (by omega) fun p => A (p / n) (p % n)).2 (i * n + j) hp
    have e1 : (i * n + j) / n = i := by rw [Nat.mul_comm, Nat.mul_add_div (by omega), Nat.div_eq_of_lt hj, Nat.add_zero]
    have e2 : (i * n + j) % n = j := by rw [Nat.mul_comm, Nat.mul_add_mod, Nat.mod_eq_of_lt hj]
    rw [e1, e2] at this
    exact this
  · intro hn
    obtain ⟨p, hp, h⟩ := (Mat.infNorm_spec (n * n) (Nat.mul_pos hn hn) fun p => A (p / n) (p % n)).1
    exact ⟨p / n, p % n, Nat.div_lt_of_lt_mul hp, Nat.mod_lt _ hn, h⟩

/-! ## Two by two -/

/-- The eigenvectors of the matrix with rows (a, b), (b, -a). -/
theorem eigen2_core {a b t : ℝ} (ht : 0 < t) (htt : t * t = a * a + b * b) (c : Prop) [Decidable c] (hc : c ↔ (a - t) * (a - t) > (-a - t) * (-a - t)) {v0 v1 : ℝ}
    (h0 : v0 = if c then -b / √((a - t) * (a - t) + b * b) else -(-a - t) / √((-a - t) * (-a - t) + b * b))
    (h1 : v1 = if c then (a - t) / √((a - t) * (a - t) + b * b) else b / √((-a - t) * (-a - t) + b * b)) :
    v0 * v0 + v1 * v1 = 1 ∧ a * v0 + b * v1 = t * v0 ∧ b * v0 - a * v1 = t * v1 := by
  by_cases hcc : c
  · rw [if_pos hcc] at h0 h1
    have hp : 0 < (a - t) * (a - t) + b * b := by
      have := hc.1 hcc
      have h2 := mul_self_nonneg (-a - t)
      have h3 := mul_self_nonneg b
      linarith
    obtain ⟨q, hq⟩ : ∃ q, q = √((a - t) * (a - t) + b * b) := ⟨_, rfl⟩
    have hq0 : 0 < q := by rw [hq]; exact Real.sqrt_pos.2 hp
    have hqq : q * q = (a - t) * (a - t) + b * b := by rw [hq]; exact Real.mul_self_sqrt hp.le
    rw [← hq] at h0 h1
    have g0 : v0 * q = -b := by rw [h0, div_mul_cancel₀ _ hq0.ne']
    have g1 : v1 * q = a - t := by rw [h1, div_mul_cancel₀ _ hq0.ne']
    refine ⟨?_, ?_, ?_⟩
    · have : (v0 * v0 + v1 * v1 - 1) * (q * q) = 0 := by linear_combination (v0 * q - b) * g0 + (v1 * q + (a - t)) * g1 - hqq
      have := (mul_eq_zero.1 this).resolve_right (mul_pos hq0 hq0).ne'
      linarith
    · have : (a * v0 + b * v1 - t * v0) * q = 0 := by linear_combination (a - t) * g0 + b * g1
      have := (mul_eq_zero.1 this).resolve_right hq0.ne'
      linarith
    · have : (b * v0 - a * v1 - t * v1) * q = 0 := by linear_combination b * g0 - (a + t) * g1 + htt
      have := (mul_eq_zero.1 this).resolve_right hq0.ne'
      linarith
  · rw [if_neg hcc] at h0 h1
    have hp : 0 < (-a - t) * (-a - t) + b * b := by
      have := not_lt.1 fun h => hcc (hc.2 h)
      have h2 := mul_self_nonneg b
      rcases (mul_self_nonneg (-a - t)).eq_or_lt with h3 | h3
      · rw [← h3] at this
        have h4 : a - t = 0 := mul_self_eq_zero.1 (le_antisymm this (mul_self_nonneg _))
        have h5 := mul_self_eq_zero.1 h3.symm
        linarith
      · linarith
    obtain ⟨q, hq⟩ : ∃ q, q = √((-a - t) * (-a - t) + b * b) := ⟨_, rfl⟩
    have hq0 : 0 < q := by rw [hq]; exact Real.sqrt_pos.2 hp
    have hqq : q * q = (-a - t) * (-a - t) + b * b := by rw [hq]; exact Real.mul_self_sqrt hp.le
    rw [← hq] at h0 h1
    have g0 : v0 * q = -(-a - t) := by rw [h0, div_mul_cancel₀ _ hq0.ne']
    have g1 : v1 * q = b := by rw [h1, div_mul_cancel₀ _ hq0.ne']
    refine ⟨?_, ?_, ?_⟩
    · have : (v0 * v0 + v1 * v1 - 1) * (q * q) = 0 := by linear_combination (v0 * q - (-a - t)) * g0 + (v1 * q + b) * g1 - hqq
      have := (mul_eq_zero.1 this).resolve_right (mul_pos hq0 hq0).ne'
      linarith
    · have : (a * v0 + b * v1 - t * v0) * q = 0 := by linear_combination (a - t) * g0 + b * g1 - htt
      have := (mul_eq_zero.1 this).resolve_right hq0.ne'
      linarith
    · have : (b * v0 - a * v1 - t * v1) * q = 0 := by linear_combination b * g0 - (a + t) * g1
      have := (mul_eq_zero.1 this).resolve_right hq0.ne'
      linarith

/-- What `eigen2` computes. -/
structure Form2 (M : Mx) (d : Dec) (s sh a b t v0 v1 : ℝ) : Prop where
  hs0 : 0 ≤ s
  ht0 : 0 ≤ t
  htt : t * t = a * a + b * b
  hm00 : M 0 0 = s * a + sh
  hm11 : M 1 1 = -(s * a) + sh
  hm10 : M 1 0 = s * b
  e0 : d.e 0 = -t * s + sh
  e1 : d.e 1 = t * s + sh
  hvec : (t = 0 ∧ d.E = identity) ∨ (0 < t ∧ (v0 * v0 + v1 * v1 = 1 ∧ a * v0 + b * v1 = t * v0 ∧ b * v0 - a * v1 = t * v1) ∧ d.E 0 1 = v0 ∧ d.E 1 1 = v1 ∧
    d.E 0 0 = Mat.orthogonal2 (fun i => d.E i 1) 0 ∧ d.E 1 0 = Mat.orthogonal2 (fun i => d.E i 1) 1)

open Classical in
theorem eigen2_form {eps : ℝ} (he : eps < 2) {M : Mx} (hM : M 0 1 = M 1 0) : ∃ s sh a b t v0 v1, Form2 M (eigen2 eps M) s sh a b t v0 v1 := by
  obtain ⟨sh, hsh⟩ : ∃ s, s = (M 0 0 + M 1 1) / 2 := ⟨_, rfl⟩
  obtain ⟨B, hB⟩ : ∃ B, B = Rot.set (Rot.set (Rot.set M 0 1 (M 1 0)) 0 0 (M 0 0 - sh)) 1 1 (M 1 1 - sh) := ⟨_, rfl⟩
  obtain ⟨s, hs⟩ : ∃ s, s = maxAbs 2 B := ⟨_, rfl⟩
  have b00 : B 0 0 = M 0 0 - sh := by rw [hB]; simp [Rot.set]
  have b01 : B 0 1 = M 1 0 := by rw [hB]; simp [Rot.set]
  have b10 : B 1 0 = M 1 0 := by rw [hB]; simp [Rot.set]
  have b11 : B 1 1 = M 1 1 - sh := by rw [hB]; simp [Rot.set]
  have hb := maxAbs_bound 2 B
  rw [← hs] at hb
  have hs0 : 0 ≤ s := (abs_nonneg _).trans (hb.1 0 0 (by decide) (by decide))
  obtain ⟨C, hC⟩ : ∃ C : Mx, C = if s > 0 then fun i j => B i j / s else B := ⟨_, rfl⟩
  have hCs : ∀ i j, i < 2 → j < 2 → s * C i j = B i j := by
    intro i j hi hj
    rw [hC]
    rcases hs0.eq_or_lt with h | h
    · rw [if_neg (by rw [← h]; exact lt_irrefl _)]
      have := hb.1 i j hi hj
      rw [← h] at this
      rw [abs_nonpos_iff.1 this, mul_zero]
    · rw [if_pos h]; field_simp
  have c11 : C 1 1 = -C 0 0 := by
    have : B 1 1 = -B 0 0 := by rw [b00, b11, hsh]; ring
    rw [hC]; split
    · dsimp only; rw [this]; ring
    · exact this
  have c01 : C 0 1 = C 1 0 := by
    rw [hC]; split
    · dsimp only; rw [b01, b10]
    · rw [b01, b10]
  obtain ⟨a, ha⟩ : ∃ a, a = C 0 0 := ⟨_, rfl⟩
  obtain ⟨b, hbb⟩ : ∃ b, b = C 1 0 := ⟨_, rfl⟩
  obtain ⟨t, ht⟩ : ∃ t, t = 1 / 2 * √((C 0 0 - C 1 1) * (C 0 0 - C 1 1) + 4 * (C 1 0 * C 1 0)) := ⟨_, rfl⟩
  have ht0 : 0 ≤ t := by rw [ht]; positivity
  have htt : t * t = a * a + b * b := by
    have h4 : (0 : ℝ) ≤ (C 0 0 - C 1 1) * (C 0 0 - C 1 1) + 4 * (C 1 0 * C 1 0) := by nlinarith [mul_self_nonneg (C 0 0 - C 1 1), mul_self_nonneg (C 1 0)]
    have := Real.mul_self_sqrt h4
    rw [ht]
    rw [show 1 / 2 * √((C 0 0 - C 1 1) * (C 0 0 - C 1 1) + 4 * (C 1 0 * C 1 0)) * (1 / 2 * √((C 0 0 - C 1 1) * (C 0 0 - C 1 1) + 4 * (C 1 0 * C 1 0)))
      = 1 / 4 * (√((C 0 0 - C 1 1) * (C 0 0 - C 1 1) + 4 * (C 1 0 * C 1 0)) * √((C 0 0 - C 1 1) * (C 0 0 - C 1 1) + 4 * (C 1 0 * C 1 0))) by ring, this,
      c11, ha, hbb]
    ring
  have t1 : 1 / 2 * (C 0 0 + C 1 1) = 0 := by rw [c11]; ring
  obtain ⟨v0, hv0⟩ : ∃ v0, v0 = if (a - t) * (a - t) > (-a - t) * (-a - t) then -b / √((a - t) * (a - t) + b * b) else -(-a - t) / √((-a - t) * (-a - t) + b * b) := ⟨_, rfl⟩
  obtain ⟨v1, hv1⟩ : ∃ v1, v1 = if (a - t) * (a - t) > (-a - t) * (-a - t) then (a - t) / √((a - t) * (a - t) + b * b) else b / √((-a - t) * (-a - t) + b * b) := ⟨_, rfl⟩
  have hval : (eigen2 eps M).e 0 = -t * s + sh ∧ (eigen2 eps M).e 1 = t * s + sh := by
    have e0 : (eigen2 eps M).e 0 = (1 / 2 * (C 0 0 + C 1 1) - t) * s + sh := by rw [ht, hC, hs, hB, hsh]; rfl
    have e1 : (eigen2 eps M).e 1 = (1 / 2 * (C 0 0 + C 1 1) + t) * s + sh := by rw [ht, hC, hs, hB, hsh]; rfl
    rw [t1] at e0 e1
    exact ⟨by rw [e0]; ring, by rw [e1]; ring⟩
  have hm00 : M 0 0 = s * a + sh := by rw [ha, hCs 0 0 (by decide) (by decide), b00]; ring
  have hm11 : M 1 1 = -(s * a) + sh := by
    have := hCs 1 1 (by decide) (by decide); rw [c11, ← ha, b11] at this; linarith
  have hm10 : M 1 0 = s * b := by rw [hbb, hCs 1 0 (by decide) (by decide), b10]
  have hvec : (t = 0 ∧ (eigen2 eps M).E = identity) ∨ (0 < t ∧ (v0 * v0 + v1 * v1 = 1 ∧ a * v0 + b * v1 = t * v0 ∧ b * v0 - a * v1 = t * v1) ∧ (eigen2 eps M).E 0 1 = v0 ∧ (eigen2 eps M).E 1 1 = v1 ∧
      (eigen2 eps M).E 0 0 = Mat.orthogonal2 (fun i => (eigen2 eps M).E i 1) 0 ∧ (eigen2 eps M).E 1 0 = Mat.orthogonal2 (fun i => (eigen2 eps M).E i 1) 1) := by
    have hcond : (1 / 2 * (C 0 0 + C 1 1) + t) - (1 / 2 * (C 0 0 + C 1 1) - t) ≤ |1 / 2 * (C 0 0 + C 1 1) + t| * eps ↔ t = 0 := by
      rw [t1, zero_add, abs_of_nonneg ht0]
      constructor
      · intro h
        by_contra hne
        have : 0 < t := lt_of_le_of_ne ht0 (Ne.symm hne)
        nlinarith
      · intro h; rw [h]; simp
    have hE : (eigen2 eps M).E = if (1 / 2 * (C 0 0 + C 1 1) + t) - (1 / 2 * (C 0 0 + C 1 1) - t) ≤ |1 / 2 * (C 0 0 + C 1 1) + t| * eps then identity else
        (let B := forN 2 (fun B d => Rot.set B d d (B d d - (1 / 2 * (C 0 0 + C 1 1) + t))) C
         let a2 := B 0 0 * B 0 0
         let c2 := B 1 1 * B 1 1
         let b2 := B 1 0 * B 1 0
         let E : Mx := fun _ _ => 0
         let E :=
           if a2 > c2 then Rot.set (Rot.set E 0 1 (-B 1 0 / √(a2 + b2))) 1 1 (B 0 0 / √(a2 + b2))
           else Rot.set (Rot.set E 0 1 (-B 1 1 / √(c2 + b2))) 1 1 (B 1 0 / √(c2 + b2))
         Rot.set (Rot.set E 0 0 (Mat.orthogonal2 (fun i => E i 1) 0)) 1 0 (Mat.orthogonal2 (fun i => E i 1) 1)) := by
      rw [ht, hC, hs, hB, hsh]; rfl
    by_cases h0 : t = 0
    · left; refine ⟨h0, ?_⟩
      rw [hE, if_pos (hcond.2 h0)]
    · right
      have hlt := lt_of_le_of_ne ht0 (Ne.symm h0)
      refine ⟨hlt, eigen2_core hlt htt _ Iff.rfl hv0 hv1, ?_⟩
      rw [if_neg (fun h => h0 (hcond.1 h))] at hE
      rw [hE, t1]
      have d00 : forN 2 (fun B d => Rot.set B d d (B d d - (0 + t))) C 0 0 = a - t := by simp [forN_succ, forN_zero, Rot.set, ha]
      have d11 : forN 2 (fun B d => Rot.set B d d (B d d - (0 + t))) C 1 1 = -a - t := by simp [forN_succ, forN_zero, Rot.set, ha, c11]
      have d10 : forN 2 (fun B d => Rot.set B d d (B d d - (0 + t))) C 1 0 = b := by simp [forN_succ, forN_zero, Rot.set, hbb]
      dsimp only
      rw [d00, d11, d10, hv0, hv1]
      refine ⟨?_, ?_, ?_, ?_⟩
      · by_cases hq : (a - t) * (a - t) > (-a - t) * (-a - t)
        · simp only [if_pos hq]; simp [Rot.set]
        · simp only [if_neg hq]; simp [Rot.set]
      · by_cases hq : (a - t) * (a - t) > (-a - t) * (-a - t)
        · simp only [if_pos hq]; simp [Rot.set]
        · simp only [if_neg hq]; simp [Rot.set]
      · simp only [Rot.set]; simp
      · simp only [Rot.set]; simp
  exact ⟨s, sh, a, b, t, v0, v1, hs0, ht0, htt, hm00, hm11, hm10, hval.1, hval.2, hvec⟩

theorem eigen2_of_form {M : Mx} (hM : M 0 1 = M 1 0) {d : Dec} {s sh a b t v0 v1 : ℝ} (h : Form2 M d s sh a b t v0 v1) :
    mx 2 d.E * (mx 2 d.E)ᵀ = 1 ∧ mx 2 M * mx 2 d.E = mx 2 d.E * diagonal (fun i : Fin 2 => d.e i) ∧ d.e 0 ≤ d.e 1 := by
  obtain ⟨hs0, ht0, htt, hm00, hm11, hm10, he0, he1, hvec⟩ := h
  have hval := And.intro he0 he1
  refine (fun x y z => ⟨z, y, x⟩) ?_ ?_ ?_
  · rw [hval.1, hval.2]; nlinarith
  · rcases hvec with ⟨h0, hE⟩ | ⟨h0, ⟨u1, u2, u3⟩, h01, h11, h00, h10⟩
    · rw [hE]
      have hid : mx 2 identity = 1 := by funext i j; fin_cases i <;> fin_cases j <;> simp [mx, identity]
      rw [hid, Matrix.mul_one, Matrix.one_mul]
      rw [h0] at htt hval
      have ha0 : a = 0 := by nlinarith [mul_self_nonneg a, mul_self_nonneg b]
      have hb0 : b = 0 := by nlinarith [mul_self_nonneg a, mul_self_nonneg b]
      rw [ha0] at hm00 hm11
      rw [hb0] at hm10
      funext i j
      fin_cases i <;> fin_cases j <;> simp [mx, Matrix.diagonal_apply, hval.1, hval.2, hm00, hm11, hm10, hM]
    · have o0 : Mat.orthogonal2 (fun i => d.E i 1) 0 = -v1 := by
        simp [Mat.orthogonal2, Mat.normalized, Mat.length, Mat.l2NormSqr, forN_succ, forN_zero, Mat.upd, h01, h11]
        rw [show v1 * v1 + v0 * v0 = 1 by linarith, Real.sqrt_one, div_one]
      have o1 : Mat.orthogonal2 (fun i => d.E i 1) 1 = v0 := by
        simp [Mat.orthogonal2, Mat.normalized, Mat.length, Mat.l2NormSqr, forN_succ, forN_zero, Mat.upd, h01, h11]
        rw [show v1 * v1 + v0 * v0 = 1 by linarith, Real.sqrt_one, div_one]
      rw [o0] at h00
      rw [o1] at h10
      funext i j
      rw [Matrix.mul_diagonal, Matrix.mul_apply, Fin.sum_univ_two]
      have hh : ∀ (X : Mx) (a b : Fin 2), mx 2 X a b = X a b := fun _ _ _ => rfl
      simp only [hh]
      fin_cases i <;> fin_cases j <;> simp [h00, h01, h10, h11, hval.1, hval.2, hm00, hm11, hm10, hM]
      · linear_combination s * u3
      · linear_combination s * u2
      · linear_combination (-s) * u2
      · linear_combination s * u3
  · rcases hvec with ⟨h0, hE⟩ | ⟨h0, ⟨u1, u2, u3⟩, h01, h11, h00, h10⟩
    · rw [hE]
      have hid : mx 2 identity = 1 := by funext i j; fin_cases i <;> fin_cases j <;> simp [mx, identity]
      rw [hid, Matrix.transpose_one, Matrix.mul_one]
    · have o0 : Mat.orthogonal2 (fun i => d.E i 1) 0 = -v1 := by
        simp [Mat.orthogonal2, Mat.normalized, Mat.length, Mat.l2NormSqr, forN_succ, forN_zero, Mat.upd, h01, h11]
        rw [show v1 * v1 + v0 * v0 = 1 by linarith, Real.sqrt_one, div_one]
      have o1 : Mat.orthogonal2 (fun i => d.E i 1) 1 = v0 := by
        simp [Mat.orthogonal2, Mat.normalized, Mat.length, Mat.l2NormSqr, forN_succ, forN_zero, Mat.upd, h01, h11]
        rw [show v1 * v1 + v0 * v0 = 1 by linarith, Real.sqrt_one, div_one]
      rw [o0] at h00
      rw [o1] at h10
      funext i j
      rw [Matrix.mul_apply, Fin.sum_univ_two]
      have hh : ∀ (X : Mx) (a b : Fin 2), mx 2 X a b = X a b := fun _ _ _ => rfl
      simp only [Matrix.transpose_apply, hh]
      fin_cases i <;> fin_cases j <;> simp [h00, h01, h10, h11, Matrix.one_apply]
      · linear_combination u1
      · ring
      · ring
      · linear_combination u1

/-! ## Positive semidefinite -/

open Classical in
theorem makePd_apply (n : Nat) (eps : ℝ) (d : Dec) (i k : Nat) (hi : i < n) (hk : k < n) :
    makePd n eps d i k = ∑ j ∈ Finset.range n, d.E i j * (if d.e j < eps then 0 else d.e j) * d.E k j := by
  obtain ⟨e, he⟩ : ∃ e, e = forN n (fun e i => if e i < eps then upd e i 0 else e) d.e := ⟨_, rfl⟩
  have he' : ∀ j, j < n → e j = if d.e j < eps then 0 else d.e j := by
    have := forN_inv (P := fun m (e : Nat → ℝ) => (∀ j, j < m → e j = if d.e j < eps then 0 else d.e j) ∧ ∀ j, m ≤ j → e j = d.e j) (n := n)
      (f := fun e i => if e i < eps then upd e i 0 else e) (s := d.e) ⟨fun j hj => absurd hj (Nat.not_lt_zero _), fun _ _ => rfl⟩ ?_
    · rw [he]; exact this.1
    · intro m _ e hp
      obtain ⟨h1, h2⟩ := hp
      have hm := h2 m (le_refl _)
      by_cases hc : e m < eps
      · simp only [if_pos hc]
        rw [hm] at hc
        constructor
        · intro j hj
          by_cases hjm : j = m
          · rw [hjm, if_pos hc]; simp [upd]
          · simp only [upd, if_neg hjm]; exact h1 j (by omega)
        · intro j hj
          simp only [upd, if_neg (by omega : j ≠ m)]; exact h2 j (by omega)
      · simp only [if_neg hc]
        rw [hm] at hc
        constructor
        · intro j hj
          by_cases hjm : j = m
          · rw [hjm, if_neg hc, hm]
          · exact h1 j (by omega)
        · intro j hj; exact h2 j (by omega)
  have h1 : ∀ (m : Nat) (A : Mx) (x : Nat → ℝ) (i i' k' : Nat), forN m (fun A k => Rot.set A i k (A i k + x k)) A i' k' =
      if i' = i ∧ k' < m then A i' k' + x k' else A i' k' := by
    intro m A x i i' k'
    induction m with
    | zero => rw [forN_zero]; simp
    | succ m ih =>
      rw [forN_succ]
      by_cases hh : i' = i ∧ k' = m
      · obtain ⟨rfl, rfl⟩ := hh
        simp only [Rot.set, and_self, if_true, Nat.lt_succ_self]
        rw [ih]; simp
      · have : Rot.set (forN m (fun A k => Rot.set A i k (A i k + x k)) A) i m (forN m (fun A k => Rot.set A i k (A i k + x k)) A i m + x m) i' k'
            = forN m (fun A k => Rot.set A i k (A i k + x k)) A i' k' := by
          simp only [Rot.set]; rw [if_neg hh]
        rw [this, ih]
        by_cases ha : i' = i ∧ k' < m
        · rw [if_pos ha, if_pos ⟨ha.1, by omega⟩]
        · rw [if_neg ha, if_neg (fun hb => ha ⟨hb.1, by have := fun h => hh ⟨hb.1, h⟩; omega⟩)]
  have h2 : ∀ (m : Nat) (A : Mx) (i i' k' : Nat), k' < n →
      forN m (fun A j => forN n (fun A k => Rot.set A i k (A i k + d.E i j * e j * d.E k j)) A) A i' k' =
        if i' = i then A i' k' + ∑ j ∈ Finset.range m, d.E i j * e j * d.E k' j else A i' k' := by
    intro m A i i' k' hk'
    induction m with
    | zero => rw [forN_zero]; simp
    | succ m ih =>
      rw [forN_succ, h1 n _ (fun k => d.E i m * e m * d.E k m), ih]
      by_cases hii : i' = i
      · rw [if_pos ⟨hii, hk'⟩, if_pos hii, if_pos hii, Finset.sum_range_succ]; ring
      · rw [if_neg (fun h => hii h.1), if_neg hii, if_neg hii]
  have h3 : ∀ (m : Nat) (A : Mx) (i' k' : Nat), k' < n →
      forN m (fun A i => forN n (fun A j => forN n (fun A k => Rot.set A i k (A i k + d.E i j * e j * d.E k j)) A) A) A i' k' =
        if i' < m then A i' k' + ∑ j ∈ Finset.range n, d.E i' j * e j * d.E k' j else A i' k' := by
    intro m A i' k' hk'
    induction m with
    | zero => rw [forN_zero]; simp
    | succ m ih =>
      rw [forN_succ, h2 _ _ _ _ _ hk', ih]
      by_cases hii : i' = m
      · rw [if_pos hii, if_neg (by omega), if_pos (by omega), hii]
      · rw [if_neg hii]
        by_cases hlt : i' < m
        · rw [if_pos hlt, if_pos (by omega)]
        · rw [if_neg hlt, if_neg (by omega)]
  rw [makePd]
  rw [← he, h3 n _ i k hk, if_pos hi, zero_add]
  exact Finset.sum_congr rfl fun j hj => by rw [he' j (Finset.mem_range.1 hj)]

open Classical in
/-- The eigenvalues that are kept. -/
noncomputable def cut (eps x : ℝ) : ℝ := if x < eps then 0 else x

theorem makePd_mx (n : Nat) (eps : ℝ) (d : Dec) : mx n (makePd n eps d) = mx n d.E * diagonal (fun i : Fin n => cut eps (d.e i)) * (mx n d.E)ᵀ := by
  funext i k
  rw [Matrix.mul_apply]
  simp only [Matrix.mul_diagonal, Matrix.transpose_apply]
  have : mx n (makePd n eps d) i k = makePd n eps d i k := rfl
  rw [this, makePd_apply n eps d i k i.2 k.2, Finset.sum_range]
  rfl

theorem cut_nonneg {eps : ℝ} (he : 0 ≤ eps) (x : ℝ) : 0 ≤ cut eps x := by
  rw [cut]; split
  · exact le_refl _
  · linarith

theorem cut_psd {n : Nat} (F : Matrix (Fin n) (Fin n) ℝ) {eps : ℝ} (he : 0 ≤ eps) (e : Fin n → ℝ) : (F * diagonal (fun i => cut eps (e i)) * Fᵀ).PosSemidef := by
  have := (Matrix.PosSemidef.diagonal (d := fun i => cut eps (e i)) (fun i => cut_nonneg he _)).mul_mul_conjTranspose_same F
  rwa [Matrix.conjTranspose_eq_transpose_of_trivial] at this

/-- No positive semidefinite matrix is nearer, but for the tolerance. -/
theorem cut_nearest {n : Nat} {F : Matrix (Fin n) (Fin n) ℝ} (hF : F * Fᵀ = 1) {eps : ℝ} (he : 0 ≤ eps) (e : Fin n → ℝ) {P : Matrix (Fin n) (Fin n) ℝ}
    (hP : P.PosSemidef) : frobSq (F * diagonal e * Fᵀ - F * diagonal (fun i => cut eps (e i)) * Fᵀ) ≤ frobSq (F * diagonal e * Fᵀ - P) + n * eps ^ 2 := by
  have hF' : Fᵀ * F = 1 := mul_eq_one_comm.1 hF
  have e1 : F * diagonal e * Fᵀ - F * diagonal (fun i => cut eps (e i)) * Fᵀ = F * (diagonal e - diagonal (fun i => cut eps (e i))) * Fᵀ := by
    rw [Matrix.mul_sub, Matrix.sub_mul]
  have e2 : F * diagonal e * Fᵀ - P = F * (diagonal e - Fᵀ * P * F) * Fᵀ := by
    rw [Matrix.mul_sub, Matrix.sub_mul]
    congr 1
    rw [Matrix.mul_assoc Fᵀ, ← Matrix.mul_assoc F, hF, Matrix.one_mul, Matrix.mul_assoc, hF, Matrix.mul_one]
  have hQ : (Fᵀ * P * F).PosSemidef := by
    have := hP.conjTranspose_mul_mul_same F
    rwa [Matrix.conjTranspose_eq_transpose_of_trivial] at this
  rw [e1, e2, Rot.frobSq_mul_right hF, Rot.frobSq_mul_right hF, Rot.frobSq_mul_left hF, Rot.frobSq_mul_left hF]
  obtain ⟨Q, hQe⟩ : ∃ Q, Q = Fᵀ * P * F := ⟨_, rfl⟩
  rw [← hQe] at hQ ⊢
  have hd : frobSq (diagonal e - diagonal fun i => cut eps (e i)) = ∑ i, (e i - cut eps (e i)) ^ 2 := by
    simp only [frobSq]
    refine Finset.sum_congr rfl fun i _ => ?_
    rw [Finset.sum_eq_single i]
    · simp
    · intro j _ hj; simp [Matrix.diagonal_apply_ne' _ hj]
    · simp
  have hq : ∑ i, (e i - Q i i) ^ 2 ≤ frobSq (diagonal e - Q) := by
    simp only [frobSq]
    refine Finset.sum_le_sum fun i _ => ?_
    have := Finset.single_le_sum (f := fun j => (diagonal e - Q) i j ^ 2) (fun j _ => sq_nonneg _) (Finset.mem_univ i)
    simpa using this
  rw [hd]
  have hs : ∑ i, (e i - cut eps (e i)) ^ 2 ≤ ∑ i, ((e i - Q i i) ^ 2 + eps ^ 2) := by
    refine Finset.sum_le_sum fun i _ => ?_
    have hqi : 0 ≤ Q i i := hQ.diag_nonneg
    rw [cut]; split
    · rename_i hlt
      rcases le_or_gt 0 (e i) with h | h
      · nlinarith [sq_nonneg (e i - Q i i)]
      · nlinarith [sq_nonneg eps]
    · nlinarith [sq_nonneg (e i - Q i i), sq_nonneg eps]
  rw [Finset.sum_add_distrib, Finset.sum_const, Finset.card_univ, Fintype.card_fin, nsmul_eq_mul] at hs
  linarith

/-! ## Three by three, without the scaling -/

/-- The scaled matrix of `eigen3`. -/
structure Form3 (M : Mx) (eps : ℝ) (d : Dec) (s sh : ℝ) (A : Mx) : Prop where
  hs0 : 0 ≤ s
  hM : ∀ i j, i < 3 → j < 3 → M i j = s * A i j + if i = j then sh else 0
  sym : Sym3 A
  tr : tr3 A = 0
  one : s = 0 ∨ ∃ i j, i < 3 ∧ j < 3 ∧ |A i j| = 1
  he : ∀ i, d.e i = roots3 A i * s + sh
  hE : d.E = vectors3 eps A (roots3 A)

open Classical in
theorem eigen3_form (eps : ℝ) {M : Mx} (hM : ∀ i j, i < 3 → j < 3 → M i j = M j i) : ∃ s sh A, Form3 M eps (eigen3 eps M) s sh A := by
  obtain ⟨sh, hsh⟩ : ∃ s, s = (M 0 0 + M 1 1 + M 2 2) / 3 := ⟨_, rfl⟩
  obtain ⟨B, hB⟩ : ∃ B, B = shift3 M sh := ⟨_, rfl⟩
  obtain ⟨s, hs⟩ : ∃ s, s = maxAbs 3 B := ⟨_, rfl⟩
  have hb := maxAbs_bound 3 B
  rw [← hs] at hb
  have hs0 : 0 ≤ s := (abs_nonneg _).trans (hb.1 0 0 (by decide) (by decide))
  obtain ⟨C, hC⟩ : ∃ C : Mx, C = if s > 0 then fun i j => B i j / s else B := ⟨_, rfl⟩
  have hBs : ∀ i j, i < 3 → j < 3 → B i j = M i j - if i = j then sh else 0 := by
    intro i j hi _
    rw [hB, shift3_apply _ _ _ _ hi]; split <;> simp
  have hCs : ∀ i j, i < 3 → j < 3 → s * C i j = B i j := by
    intro i j hi hj
    rw [hC]
    rcases hs0.eq_or_lt with h | h
    · rw [if_neg (by rw [← h]; exact lt_irrefl _)]
      have := hb.1 i j hi hj
      rw [← h] at this
      rw [abs_nonpos_iff.1 this, mul_zero]
    · rw [if_pos h]; field_simp
  have hsy : ∀ i j, i < 3 → j < 3 → C i j = C j i := by
    intro i j hi hj
    have : B i j = B j i := by
      rw [hBs i j hi hj, hBs j i hj hi, hM i j hi hj]
      by_cases h : i = j
      · rw [h]
      · rw [if_neg h, if_neg (Ne.symm h)]
    rw [hC]; split
    · dsimp only; rw [this]
    · exact this
  refine ⟨s, sh, C, hs0, ?_, ⟨hsy _ _ (by decide) (by decide), hsy _ _ (by decide) (by decide), hsy _ _ (by decide) (by decide)⟩, ?_, ?_, ?_, ?_⟩
  · intro i j hi hj; rw [hCs i j hi hj, hBs i j hi hj]; ring
  · have hz : B 0 0 + B 1 1 + B 2 2 = 0 := by
      rw [hBs 0 0 (by decide) (by decide), hBs 1 1 (by decide) (by decide), hBs 2 2 (by decide) (by decide), if_pos rfl, if_pos rfl, if_pos rfl, hsh]; ring
    rw [tr3, hC]; split
    · dsimp only; rw [← add_div, ← add_div, hz, zero_div]
    · exact hz
  · rcases hs0.eq_or_lt with h | h
    · left; exact h.symm
    · right
      obtain ⟨i, j, hi, hj, hij⟩ := hb.2 (by decide)
      refine ⟨i, j, hi, hj, ?_⟩
      rw [hC, if_pos h]
      rw [abs_div, ← hij, abs_of_pos h, div_self h.ne']
  · intro i; rw [hC, hs, hB, hsh]; rfl
  · rw [hC, hs, hB, hsh]; rfl

theorem frobSq_three_roots {A : Mx} {x y z : ℝ} (h : Sym3 A) (hr : Roots A x y z) : x ^ 2 + y ^ 2 + z ^ 2 = frobSq (mx 3 A) := by
  obtain ⟨s1, s2, -⟩ := hr
  simp only [tr3] at s1
  simp only [mi3] at s2
  have : x ^ 2 + y ^ 2 + z ^ 2 = (x + y + z) ^ 2 - 2 * (x * y + x * z + y * z) := by ring
  rw [this, s1, s2]
  have hh : ∀ a b : Fin 3, mx 3 A a b = A a b := fun _ _ => rfl
  simp only [frobSq, Fin.sum_univ_three, hh]
  simp [h.h01, h.h02, h.h12]
  ring

/-- The values are equal (nearly) only for a multiple of the identity matrix. -/
theorem gap_zero {M : Mx} {eps : ℝ} {d : Dec} {s sh : ℝ} {A : Mx} (h : Form3 M eps d s sh A) (he : eps < 1 / 2) (hg : roots3 A 2 - roots3 A 0 ≤ eps) : s = 0 := by
  rcases h.one with hs | ⟨i, j, hi, hj, hij⟩
  · exact hs
  exfalso
  obtain ⟨hr, h01, h12⟩ := roots3_spec h.sym
  have ht := hr.s1
  rw [h.tr] at ht
  have hf := frobSq_three_roots h.sym hr
  have h1 : 1 ≤ frobSq (mx 3 A) := by
    have a1 := Finset.single_le_sum (f := fun a : Fin 3 => ∑ b, mx 3 A a b ^ 2) (fun a _ => Finset.sum_nonneg fun b _ => sq_nonneg _) (Finset.mem_univ ⟨i, hi⟩)
    have a2 := Finset.single_le_sum (f := fun b : Fin 3 => mx 3 A ⟨i, hi⟩ b ^ 2) (fun b _ => sq_nonneg _) (Finset.mem_univ ⟨j, hj⟩)
    have a3 : mx 3 A ⟨i, hi⟩ ⟨j, hj⟩ ^ 2 = 1 := by
      have : mx 3 A ⟨i, hi⟩ ⟨j, hj⟩ = A i j := rfl
      rw [this, ← sq_abs, hij]; norm_num
    rw [frobSq]
    linarith
  have hb : ∀ v : ℝ, roots3 A 0 ≤ v → v ≤ roots3 A 2 → v ^ 2 ≤ 1 / 4 := by
    intro v h1 h2
    have l : -(1 / 2) ≤ v := by linarith
    have u : v ≤ 1 / 2 := by linarith
    nlinarith
  have b0 := hb (roots3 A 0) (le_refl _) (by linarith)
  have b1 := hb (roots3 A 1) h01 h12
  have b2 := hb (roots3 A 2) (by linarith) (le_refl _)
  linarith

end Verif.Eig
