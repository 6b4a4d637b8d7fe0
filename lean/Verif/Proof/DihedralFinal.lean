import Verif.Proof.DihedralBlocks

/-! The derivative of the gradient of the angle between two triangles. -/
namespace Verif.Dihedral

open Verif.Rotation (V M cross dot3 nsq3)
open Verif.Friction (nsq3_nonneg nsq3_pos nsq_cross)

theorem cross_add_left (a b c : V 3) : cross (a + b) c = cross a c + cross b c := by
  funext i; rcases (by omega : i = 0 ∨ i = 1 ∨ i = 2) with rfl | rfl | rfl <;>
  · simp only [cross, Pi.add_apply, Matrix.cons_val_zero, Matrix.cons_val_one, Matrix.cons_val]; ring

theorem cross_add_right (a b c : V 3) : cross a (b + c) = cross a b + cross a c := by
  funext i; rcases (by omega : i = 0 ∨ i = 1 ∨ i = 2) with rfl | rfl | rfl <;>
  · simp only [cross, Pi.add_apply, Matrix.cons_val_zero, Matrix.cons_val_one, Matrix.cons_val]; ring

theorem halfDer_add (e0 e1 a b c d : V 3) (k i : Fin 3) : halfDer e0 e1 (a + b) (c + d) k i = halfDer e0 e1 a c k i + halfDer e0 e1 b d k i := by
  rcases (by omega : k = 0 ∨ k = 1 ∨ k = 2) with rfl | rfl | rfl <;>
  · simp only [halfDer, cross_add_left, cross_add_right, dot_add_left, dot_add_right, dot_sub_right, Pi.add_apply, Matrix.cons_val_zero, Matrix.cons_val_one, Matrix.cons_val]
    ring

theorem turned (e0 e1 d : V 3) (i : Fin 3) : dot3 (perp e1 e0) d * cross e0 e1 i - dot3 (cross e0 e1) d * perp e1 e0 i = nsq3 (cross e0 e1) * cross d e0 i := by
  rcases (by omega : i = 0 ∨ i = 1 ∨ i = 2) with rfl | rfl | rfl <;>
  · simp only [perp, cross, dot3, nsq3, Matrix.cons_val_zero, Matrix.cons_val_one, Matrix.cons_val]; ring

/-- What the block of `v1` and `v0` lacks to be the derivative of one triangle; it is the same for both triangles. -/
def lack (e0 d : V 3) (k i : Fin 3) : ℝ := if k = 2 then cross d e0 i else 0

theorem half_all (e0 e1 : V 3) (w : Fin 3 → V 3) (k i : Fin 3) :
    halfDer e0 e1 (w 2 - w 1) (w 0 - w 1) k i = ∑ m, ∑ j, halfNum e0 e1 k m i j * w m j + nsq3 (cross e0 e1) ^ 2 * lack e0 (w 1) k i := by
  have e : halfDer e0 e1 (w 2 - w 1) (w 0 - w 1) k i = halfDer e0 e1 0 (w 0) k i + halfDer e0 e1 (-w 1) (-w 1) k i + halfDer e0 e1 (w 2) 0 k i := by
    rw [← halfDer_add, ← halfDer_add]
    congr 1 <;> abel
  rw [e]
  simp only [Fin.sum_univ_three]
  have t := turned e0 e1 (w 1) i
  rcases (by omega : k = 0 ∨ k = 1 ∨ k = 2) with rfl | rfl | rfl <;> rcases (by omega : i = 0 ∨ i = 1 ∨ i = 2) with rfl | rfl | rfl
  · rw [half000, half010, half020, lack, if_neg (by decide)]; ring
  · rw [half001, half011, half021, lack, if_neg (by decide)]; ring
  · rw [half002, half012, half022, lack, if_neg (by decide)]; ring
  · rw [half100, half110, half120, lack, if_neg (by decide)]; ring
  · rw [half101, half111, half121, lack, if_neg (by decide)]; ring
  · rw [half102, half112, half122, lack, if_neg (by decide)]; ring
  · rw [half200, half210, half220, lack, if_pos rfl, t]; ring
  · rw [half201, half211, half221, lack, if_pos rfl, t]; ring
  · rw [half202, half212, half222, lack, if_pos rfl, t]; ring

theorem num_deriv {f0 f1 : ℝ → V 3} {d0 d1 : V 3} (h0 : HasD f0 d0) (h1 : HasD f1 d1) (k : Fin 3) :
    HasDerivAt (fun t => num (f0 t) (f1 t) k)
      ((![-(2 * dot3 (f0 0) d0), -(dot3 d0 (f1 0 - f0 0) + dot3 (f0 0) (d1 - d0)), dot3 d0 (f1 0) + dot3 (f0 0) d1] : Fin 3 → ℝ) k) 0 := by
  rcases (by omega : k = 0 ∨ k = 1 ∨ k = 2) with rfl | rfl | rfl
  · exact h0.nsq.neg
  · exact (h0.dot (h1.sub h0)).neg
  · exact h0.dot h1

theorem halfGrad_deriv {f0 f1 : ℝ → V 3} {d0 d1 : V 3} (h0 : HasD f0 d0) (h1 : HasD f1 d1) (ha : 0 < nsq3 (cross (f0 0) (f1 0))) (k i : Fin 3) :
    HasDerivAt (fun t => halfGrad (f0 t) (f1 t) k i) (halfDer (f0 0) (f1 0) d0 d1 k i / (norm (f0 0) ^ 3 * nsq3 (cross (f0 0) (f1 0)) ^ 2)) 0 := by
  have hl := edge_pos ha
  have hL := norm_pos hl
  have hn := h0.cross h1
  have hden := (h0.norm hl).mul hn.nsq
  have := ((num_deriv h0 h1 k).div hden (mul_pos hL ha).ne').mul (hn i)
  refine this.congr_deriv ?_
  simp only [halfDer, Pi.div_apply, Pi.mul_apply]
  rw [← norm_sq (f0 0)]
  generalize cross d0 (f1 0) + cross (f0 0) d1 = n' at *
  generalize (![-(2 * dot3 (f0 0) d0), -(dot3 d0 (f1 0 - f0 0) + dot3 (f0 0) (d1 - d0)), dot3 d0 (f1 0) + dot3 (f0 0) d1] : Fin 3 → ℝ) k = fk at *
  generalize num (f0 0) (f1 0) k = f at *
  generalize norm (f0 0) = L at *
  generalize nsq3 (cross (f0 0) (f1 0)) = a at *
  generalize cross (f0 0) (f1 0) = n at *
  field_simp
  ring

/-- The part of one triangle in the gradient. -/
noncomputable def partG (pos : Fin 4 → Option (Fin 3)) (e0 e1 : V 3) (p : Fin 4) (i : Fin 3) : ℝ :=
  match pos p with
  | some k => halfGrad e0 e1 k i
  | none => 0

theorem gradient_eq {v2 v0 v1 v3 : V 3} (hl : 0 < nsq3 (v1 - v0)) (p : Fin 4) (i : Fin 3) :
    gradient v2 v0 v1 v3 p i = partG pos1 (v1 - v0) (v2 - v0) p i - partG pos2 (v1 - v0) (v3 - v0) p i := by
  have r3 : v2 - v1 = (v2 - v0) - (v1 - v0) := (sub_sub_sub_cancel_right _ _ _).symm
  have r4 : v3 - v1 = (v3 - v0) - (v1 - v0) := (sub_sub_sub_cancel_right _ _ _).symm
  have hL := norm_pos hl
  unfold gradient
  simp only [r3, r4]
  have sw := cross_swap (v3 - v0) (v1 - v0)
  have hs2 : nsq3 (cross (v3 - v0) (v1 - v0)) = nsq3 (cross (v1 - v0) (v3 - v0)) := nsq_swap _ _
  have s0 := norm_sq (v1 - v0)
  have cancel : ∀ x y : ℝ, -(norm (v1 - v0)) / x * y = -(norm (v1 - v0) * norm (v1 - v0)) / (norm (v1 - v0) * x) * y := by
    intro x y
    rw [← neg_mul, mul_comm (-norm (v1 - v0)), mul_div_mul_left _ _ hL.ne']
  rcases (by omega : p = 0 ∨ p = 1 ∨ p = 2 ∨ p = 3) with rfl | rfl | rfl | rfl <;>
  · simp only [partG, pos1, pos2, halfGrad, num, Matrix.cons_val_zero, Matrix.cons_val_one, Matrix.cons_val, Pi.add_apply, Pi.sub_apply, Pi.smul_apply, smul_eq_mul, sw, hs2, cancel, s0]
    ring

/-- Sums over the four points are sums over the triangle. -/
theorem part_sum (pos : Fin 4 → Option (Fin 3)) (e0 e1 : V 3) (w : Fin 4 → V 3) (hpos : pos = pos1 ∨ pos = pos2) {p : Fin 4} {k : Fin 3} (hk : pos p = some k) (i : Fin 3) :
    ∑ q, ∑ j, part pos e0 e1 p q i j * w q j =
      (∑ m, ∑ j, halfNum e0 e1 k m i j * (![w (if pos = pos1 then 0 else 3), w 1, w 2] : Fin 3 → V 3) m j) / (norm e0 ^ 3 * nsq3 (cross e0 e1) ^ 2) := by
  have hne : pos2 ≠ pos1 := by intro h; have := congrFun h 0; simp [pos1, pos2] at this
  rcases hpos with rfl | rfl
  · simp only [part, hk, if_pos]
    simp only [Fin.sum_univ_four, Fin.sum_univ_three, pos1, Matrix.cons_val_zero, Matrix.cons_val_one, Matrix.cons_val]
    ring
  · simp only [part, hk, if_neg hne]
    simp only [Fin.sum_univ_four, Fin.sum_univ_three, pos2, Matrix.cons_val_zero, Matrix.cons_val_one, Matrix.cons_val]
    ring

theorem part_none {pos : Fin 4 → Option (Fin 3)} {p : Fin 4} (h : pos p = none) (e0 e1 : V 3) (w : Fin 4 → V 3) (i : Fin 3) :
    ∑ q, ∑ j, part pos e0 e1 p q i j * w q j = 0 := by
  simp [part, h]

/-- One triangle: derivative of its part of the gradient. -/
theorem partG_deriv {pos : Fin 4 → Option (Fin 3)} (hpos : pos = pos1 ∨ pos = pos2) (v0 v1 vt : V 3) (w : Fin 4 → V 3)
    (ha : 0 < nsq3 (cross (v1 - v0) (vt - v0))) (p : Fin 4) (i : Fin 3) :
    HasDerivAt (fun t : ℝ => partG pos ((v1 + t • w 2) - (v0 + t • w 1)) ((vt + t • w (if pos = pos1 then 0 else 3)) - (v0 + t • w 1)) p i)
      (∑ q, ∑ j, part pos (v1 - v0) (vt - v0) p q i j * w q j + (if p = 2 then cross (w 1) (v1 - v0) i / norm (v1 - v0) ^ 3 else 0)) 0 := by
  have z : ∀ a b : V 3, a + (0 : ℝ) • b = a := fun a b => by simp
  have hL := norm_pos (edge_pos ha)
  cases hk : pos p with
  | none =>
    rw [part_none hk]
    have hp2 : p ≠ 2 := by
      rintro rfl
      rcases hpos with rfl | rfl <;> simp [pos1, pos2] at hk
    rw [if_neg hp2]
    simp only [partG, hk, add_zero]
    exact hasDerivAt_const _ _
  | some k =>
    rw [part_sum pos _ _ w hpos hk]
    simp only [partG, hk]
    have h0 := (HasD.line v1 (w 2)).sub (HasD.line v0 (w 1))
    have h1 := (HasD.line vt (w (if pos = pos1 then 0 else 3))).sub (HasD.line v0 (w 1))
    have hd := halfGrad_deriv h0 h1 (by simpa only [z] using ha) k i
    simp only [z] at hd
    refine hd.congr_deriv ?_
    have hall := half_all (v1 - v0) (vt - v0) (![w (if pos = pos1 then 0 else 3), w 1, w 2]) k i
    simp only [Matrix.cons_val_zero, Matrix.cons_val_one, Matrix.cons_val] at hall
    rw [hall, add_div]
    congr 1
    have hp : (k = 2 ↔ p = 2) := by
      rcases hpos with rfl | rfl <;> rcases (by omega : p = 0 ∨ p = 1 ∨ p = 2 ∨ p = 3) with rfl | rfl | rfl | rfl <;> simp [pos1, pos2] at hk <;> subst hk <;> decide
    by_cases h2 : p = 2
    · rw [lack, if_pos (hp.2 h2), if_pos h2]
      field_simp
    · rw [lack, if_neg (mt hp.1 h2), if_neg h2]; simp

theorem proper1 {v2 v0 v1 : V 3} (h : Proper v2 v0 v1) : 0 < nsq3 (cross (v1 - v0) (v2 - v0)) := by
  obtain ⟨i, hi⟩ := h
  rw [← normal1]; exact nsq3_pos hi

theorem proper2 {v0 v1 v3 : V 3} (h : Proper v3 v1 v0) : 0 < nsq3 (cross (v3 - v0) (v1 - v0)) := by
  obtain ⟨i, hi⟩ := h
  rw [← normal2]; exact nsq3_pos hi

theorem moment {e0 e1 : V 3} (h : 0 < nsq3 (cross e0 e1)) (i : Fin 3) : cross e1 (halfGrad e0 e1 0) i + cross e0 (halfGrad e0 e1 2) i = -(e0 i / norm e0) := by
  have hL := norm_pos (edge_pos h)
  have key : cross e1 (cross e0 e1) i * -nsq3 e0 + cross e0 (cross e0 e1) i * dot3 e0 e1 = -(e0 i * nsq3 (cross e0 e1)) := by
    rcases (by omega : i = 0 ∨ i = 1 ∨ i = 2) with rfl | rfl | rfl <;>
    · simp only [cross, dot3, nsq3, Matrix.cons_val_zero, Matrix.cons_val_one, Matrix.cons_val]; ring
  have lin : ∀ (k : ℝ) (a b : V 3), cross a (fun i => k * b i) i = k * cross a b i := by
    intro k a b
    rcases (by omega : i = 0 ∨ i = 1 ∨ i = 2) with rfl | rfl | rfl <;>
    · simp only [cross, Matrix.cons_val_zero, Matrix.cons_val_one, Matrix.cons_val]; ring
  unfold halfGrad
  simp only [num, lin, Matrix.cons_val_zero, Matrix.cons_val_one, Matrix.cons_val]
  field_simp
  linear_combination key

theorem part_symm {pos : Fin 4 → Option (Fin 3)} (hpos : pos = pos1 ∨ pos = pos2) {e0 e1 : V 3} (h : 0 < nsq3 (cross e0 e1)) (p q : Fin 4) (i j : Fin 3) :
    part pos e0 e1 p q i j - part pos e0 e1 q p j i = if p = q ∧ (p = 1 ∨ p = 2) then -cross (Pi.single j 1) e0 i / norm e0 ^ 3 else 0 := by
  have hL := norm_pos (edge_pos h)
  have t := turned e0 e1 (Pi.single j 1) i
  have hd : ∀ a : V 3, dot3 a (Pi.single j 1) = a j := by
    intro a
    rcases (by omega : j = 0 ∨ j = 1 ∨ j = 2) with rfl | rfl | rfl <;> simp [dot3]
  rw [hd, hd] at t
  have t' : perp e1 e0 j * cross e0 e1 i = cross e0 e1 j * perp e1 e0 i + nsq3 (cross e0 e1) * cross (Pi.single j 1) e0 i := by linarith
  rcases hpos with rfl | rfl <;> rcases (by omega : p = 0 ∨ p = 1 ∨ p = 2 ∨ p = 3) with rfl | rfl | rfl | rfl <;>
    rcases (by omega : q = 0 ∨ q = 1 ∨ q = 2 ∨ q = 3) with rfl | rfl | rfl | rfl
  all_goals
    first
    | rw [if_neg (by decide)]
      simp only [part, pos1, pos2, halfNum, Matrix.cons_val_zero, Matrix.cons_val_one, Matrix.cons_val]
      ring1
    | rw [if_pos (by decide)]
      simp only [part, pos1, pos2, halfNum, Matrix.cons_val_zero, Matrix.cons_val_one, Matrix.cons_val]
      generalize cross (Pi.single j 1) e0 i = x at *
      generalize perp e1 e0 = u at *
      generalize norm e0 = L at *
      generalize nsq3 (cross e0 e1) = a at *
      field_simp
      linear_combination (-a) * t'

end Verif.Dihedral
