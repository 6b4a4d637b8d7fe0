import Verif.Model.SmallMat
import Mathlib.Algebra.BigOperators.Fin
import Mathlib.LinearAlgebra.Matrix.Determinant.Basic
import Mathlib.LinearAlgebra.Matrix.Adjugate
import Mathlib.LinearAlgebra.Matrix.Trace
import Mathlib.LinearAlgebra.CrossProduct
import Mathlib.Data.Matrix.Mul
import Mathlib.Tactic.Ring
import Mathlib.Tactic.Linarith
import Mathlib.Tactic.FinCases

/-! Helper lemmas for C75: loops that fill a storage. -/
namespace Verif.Mat

open Finset

/-- The vector and the matrix a storage holds. -/
def toVec {K : Type} (n : Nat) (a : Store K) : Fin n → K := fun i => a i

def toMat {K : Type} (M N : Nat) (a : Store K) : Matrix (Fin M) (Fin N) K := fun i j => a (at2 N i j)

/-- The matrix a column-major array holds. -/
def toMatC {K : Type} (n : Nat) (a : Store K) : Matrix (Fin n) (Fin n) K := fun i j => a (i + j * n)

theorem forN_succ {σ : Type} (n : Nat) (f : σ → Nat → σ) (s : σ) : forN (n + 1) f s = f (forN n f s) n := by
  simp [forN, List.range_succ]

theorem forN_zero {σ : Type} (f : σ → Nat → σ) (s : σ) : forN 0 f s = s := rfl

theorem forN_inv {σ : Type} {P : Nat → σ → Prop} {n : Nat} {f : σ → Nat → σ} {s : σ} (h0 : P 0 s)
    (hs : ∀ k, k < n → ∀ s, P k s → P (k + 1) (f s k)) : P n (forN n f s) := by
  induction n with
  | zero => exact h0
  | succ n ih => rw [forN_succ]; exact hs n (Nat.lt_succ_self n) _ (ih fun k hk => hs k (by omega))

theorem forN_congr {σ : Type} {n : Nat} {f g : σ → Nat → σ} {s : σ} (h : ∀ k, k < n → ∀ s, f s k = g s k) : forN n f s = forN n g s := by
  induction n with
  | zero => rfl
  | succ n ih => rw [forN_succ, forN_succ, ih fun k hk => h k (by omega), h n (by omega)]

theorem upd_same {K : Type} (r : Store K) (i : Nat) (v : K) : upd r i v i = v := if_pos rfl

theorem upd_ne {K : Type} (r : Store K) {i k : Nat} (v : K) (h : k ≠ i) : upd r i v k = r k := if_neg h

theorem upd_upd {K : Type} (r : Store K) (i : Nat) (v w : K) : upd (upd r i v) i w = upd r i w := by
  funext k; simp only [upd]; split <;> rfl

/-- A loop that writes one position per pass. -/
theorem fill {K : Type} {n : Nat} (p : Nat → Nat) (f : Nat → K) (r : Store K) (hp : ∀ i, i < n → ∀ j, j < n → p i = p j → i = j) :
    (∀ i, i < n → forN n (fun r i => upd r (p i) (f i)) r (p i) = f i) ∧
    ∀ x, (∀ i, i < n → p i ≠ x) → forN n (fun r i => upd r (p i) (f i)) r x = r x := by
  induction n with
  | zero => exact ⟨fun i h => absurd h (Nat.not_lt_zero i), fun x _ => rfl⟩
  | succ n ih =>
    have ih := ih fun i hi j hj => hp i (by omega) j (by omega)
    rw [forN_succ]
    constructor
    · intro i hi
      by_cases h : p i = p n
      · have := hp i hi n (by omega) h
        subst this; exact upd_same _ _ _
      · rw [upd_ne _ _ h]
        exact ih.1 i (by rcases Nat.lt_succ_iff_lt_or_eq.1 hi with h' | h'; exact h'; exact absurd (by rw [h']) h)
    · intro x hx
      rw [upd_ne _ _ (Ne.symm (hx n (by omega)))]
      exact ih.2 x fun i hi => hx i (by omega)

theorem fill_id {K : Type} {n : Nat} (f : Nat → K) (r : Store K) {i : Nat} (hi : i < n) : forN n (fun r i => upd r i (f i)) r i = f i :=
  (fill (fun i => i) f r fun _ _ _ _ h => h).1 i hi

/-- Two nested loops. -/
theorem fill2 {K : Type} {M N : Nat} (p : Nat → Nat → Nat) (f : Nat → Nat → K) (r : Store K)
    (hp : ∀ i, i < M → ∀ j, j < N → ∀ i', i' < M → ∀ j', j' < N → p i j = p i' j' → i = i' ∧ j = j') :
    ∀ i, i < M → ∀ j, j < N → forN M (fun r i => forN N (fun r j => upd r (p i j) (f i j)) r) r (p i j) = f i j := by
  induction M with
  | zero => exact fun i h => absurd h (Nat.not_lt_zero i)
  | succ M ih =>
    intro i hi j hj
    rw [forN_succ]
    have hinj : ∀ j, j < N → ∀ j', j' < N → p M j = p M j' → j = j' := fun j hj j' hj' h => (hp M (by omega) j hj M (by omega) j' hj' h).2
    by_cases h : i = M
    · subst h; exact (fill (p i) (f i) _ hinj).1 j hj
    · rw [(fill (p M) (f M) _ hinj).2 _ fun j' hj' e => h (hp M (by omega) j' hj' i hi j hj e).1.symm]
      exact ih (fun i hi j hj i' hi' j' hj' => hp i (by omega) j hj i' (by omega) j' hj') i (by omega) j hj

theorem at2_inj {N i j i' j' : Nat} (hj : j < N) (hj' : j' < N) (h : at2 N i j = at2 N i' j') : i = i' ∧ j = j' := by
  simp only [at2] at h
  have h1 : (i * N + j) / N = i := by rw [Nat.mul_comm, Nat.mul_add_div (by omega), Nat.div_eq_of_lt hj]; omega
  have h2 : (i' * N + j') / N = i' := by rw [Nat.mul_comm, Nat.mul_add_div (by omega), Nat.div_eq_of_lt hj']; omega
  have : i = i' := by rw [← h1, h, h2]
  subst this; exact ⟨rfl, by omega⟩

theorem at2_lt {M N i j : Nat} (hi : i < M) (hj : j < N) : at2 N i j < M * N := by
  have : (i + 1) * N ≤ M * N := Nat.mul_le_mul_right _ hi
  simp only [at2]; rw [Nat.add_mul] at this; omega

theorem fillMat {K : Type} {M N : Nat} (f : Nat → Nat → K) (r : Store K) {i j : Nat} (hi : i < M) (hj : j < N) :
    forN M (fun r i => forN N (fun r j => upd r (at2 N i j) (f i j)) r) r (at2 N i j) = f i j :=
  fill2 (at2 N) f r (fun _ _ _ hj _ _ _ hj' h => at2_inj hj hj' h) i hi j hj

theorem fillMatT {K : Type} {M N : Nat} (f : Nat → Nat → K) (r : Store K) {i j : Nat} (hi : i < M) (hj : j < N) :
    forN M (fun r i => forN N (fun r j => upd r (at2 M j i) (f i j)) r) r (at2 M j i) = f i j :=
  fill2 (fun i j => at2 M j i) f r (fun _ hi _ _ _ hi' _ _ h => (at2_inj hi hi' h).symm) i hi j hj

variable {K : Type} [CommRing K]

/-- A loop that adds to one position. -/
theorem acc (L c : Nat) (g : Nat → K) (r : Store K) :
    forN L (fun r k => upd r c (r c + g k)) (upd r c 0) = upd r c (∑ k : Fin L, g k) := by
  rw [Fin.sum_univ_eq_sum_range]
  induction L with
  | zero => simp [forN_zero]
  | succ L ih => rw [forN_succ, ih, upd_upd, upd_same, Finset.sum_range_succ]

theorem forN_sum (n : Nat) (g : Nat → K) : forN n (fun r i => r + g i) 0 = ∑ i : Fin n, g i := by
  rw [Fin.sum_univ_eq_sum_range]
  induction n with
  | zero => rfl
  | succ n ih => rw [forN_succ, ih, Finset.sum_range_succ]

/-- The two inner loops of `determinant`. -/
theorem minor_spec (n j : Nat) (hj : j ≤ n) (a m : Store K) {r c : Nat} (hr : r < n) (hc : c < n) :
    minor n j a m (at2 n r c) = a (at2 (n + 1) (r + 1) (if c < j then c else c + 1)) := by
  -- one row
  have inner : ∀ (R : Nat) (m : Store K) (k : Nat), k ≤ n + 1 →
      (forN k (fun (s : Nat × Store K) c =>
        if c = j then (1, s.2) else (s.1, upd s.2 (at2 n (R + 1 - 1) (c - s.1)) (a (at2 (n + 1) (R + 1) c)))) (0, m)).1
        = (if j < k then 1 else 0) ∧
      ∀ x c, c < n → (forN k (fun (s : Nat × Store K) c =>
        if c = j then (1, s.2) else (s.1, upd s.2 (at2 n (R + 1 - 1) (c - s.1)) (a (at2 (n + 1) (R + 1) c)))) (0, m)).2 (at2 n x c)
        = if x = R ∧ (if c < j then c < k else c + 1 < k) then a (at2 (n + 1) (R + 1) (if c < j then c else c + 1)) else m (at2 n x c) := by
    intro R m k
    induction k with
    | zero => intro _; exact ⟨by simp [forN_zero], fun x c _ => by simp [forN_zero]⟩
    | succ k ih =>
      intro hk
      obtain ⟨ih1, ih2⟩ := ih (by omega)
      rw [forN_succ]
      generalize forN k _ ((0, m) : Nat × Store K) = s at ih1 ih2
      by_cases hkj : k = j
      · rw [if_pos hkj]
        refine ⟨by rw [if_pos (by omega)], fun x c hc => ?_⟩
        rw [show ((1, s.2) : Nat × Store K).2 = s.2 from rfl, ih2 x c hc]
        have : (if c < j then c < k else c + 1 < k) ↔ (if c < j then c < k + 1 else c + 1 < k + 1) := by
          by_cases h : c < j
          · rw [if_pos h, if_pos h]; omega
          · rw [if_neg h, if_neg h]; omega
        simp only [this]
      · rw [if_neg hkj]
        refine ⟨by show s.1 = _; rw [ih1]; split <;> split <;> omega, fun x c hc => ?_⟩
        show upd s.2 _ _ _ = _
        have hs : k - s.1 < n := by rw [ih1]; split <;> omega
        by_cases hx : at2 n x c = at2 n (R + 1 - 1) (k - s.1)
        · obtain ⟨h1, h2⟩ := at2_inj hc hs hx
          rw [hx, upd_same]
          have h1 : x = R := by omega
          rw [ih1] at h2
          by_cases hjk : j < k
          · rw [if_pos hjk] at h2
            have h3 : ¬ c < j := by omega
            rw [if_pos ⟨h1, by rw [if_neg h3]; omega⟩, if_neg h3, show c + 1 = k by omega]
          · rw [if_neg hjk] at h2
            have h3 : c < j := by omega
            rw [if_pos ⟨h1, by rw [if_pos h3]; omega⟩, if_pos h3, show c = k by omega]
        · rw [upd_ne _ _ hx, ih2 x c hc]
          have : (x = R ∧ (if c < j then c < k else c + 1 < k)) ↔ (x = R ∧ (if c < j then c < k + 1 else c + 1 < k + 1)) := by
            constructor
            · rintro ⟨h1, h2⟩
              refine ⟨h1, ?_⟩
              by_cases h : c < j
              · rw [if_pos h] at h2 ⊢; omega
              · rw [if_neg h] at h2 ⊢; omega
            · rintro ⟨h1, h2⟩
              refine ⟨h1, ?_⟩
              have hne : c ≠ k - s.1 := fun e => hx (by rw [h1, e]; rfl)
              rw [ih1] at hne
              by_cases h : c < j
              · rw [if_pos h] at h2 ⊢
                by_cases hjk : j < k
                · omega
                · rw [if_neg hjk] at hne; omega
              · rw [if_neg h] at h2 ⊢
                by_cases hjk : j < k
                · rw [if_pos hjk] at hne; omega
                · omega
          simp only [this]
  have outer : ∀ k, k ≤ n → ∀ x c, c < n → x < k →
      forN k (fun m r' => (forN (n + 1) (fun (s : Nat × Store K) c =>
        if c = j then (1, s.2) else (s.1, upd s.2 (at2 n (r' + 1 - 1) (c - s.1)) (a (at2 (n + 1) (r' + 1) c)))) (0, m)).2) m (at2 n x c)
      = a (at2 (n + 1) (x + 1) (if c < j then c else c + 1)) := by
    intro k
    induction k with
    | zero => intro _ x c _ hx; omega
    | succ k ih =>
      intro hk x c hc hx
      rw [forN_succ, (inner k _ (n + 1) (by omega)).2 x c hc]
      by_cases hxk : x = k
      · rw [if_pos ⟨hxk, by split <;> omega⟩, hxk]
      · rw [if_neg (fun h => hxk h.1)]
        exact ih (by omega) x c hc (by omega)
  exact outer n (Nat.le_refl n) r c hc hr

end Verif.Mat
