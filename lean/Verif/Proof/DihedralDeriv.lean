import Verif.Proof.Dihedral

/-! Derivatives along lines for the angle between two triangles. -/
namespace Verif.Dihedral

open Verif.Rotation (V M cross dot3 nsq3)
open Verif.Friction (nsq3_nonneg nsq3_pos nsq_cross)

/-- Derivative of a curve of points, component by component, at zero. -/
def HasD (f : ℝ → V 3) (f' : V 3) : Prop := ∀ i, HasDerivAt (fun t => f t i) (f' i) 0

theorem HasD.line (a w : V 3) : HasD (fun t => a + t • w) w := fun i => by
  have := ((hasDerivAt_id (0 : ℝ)).mul_const (w i)).const_add (a i)
  simpa using this

theorem HasD.sub {f g : ℝ → V 3} {f' g' : V 3} (hf : HasD f f') (hg : HasD g g') : HasD (fun t => f t - g t) (f' - g') := fun i => (hf i).sub (hg i)

theorem HasD.dot {f g : ℝ → V 3} {f' g' : V 3} (hf : HasD f f') (hg : HasD g g') :
    HasDerivAt (fun t => dot3 (f t) (g t)) (dot3 f' (g 0) + dot3 (f 0) g') 0 := by
  have := (((hf 0).mul (hg 0)).add ((hf 1).mul (hg 1))).add ((hf 2).mul (hg 2))
  refine this.congr_deriv ?_
  simp only [dot3]; ring

theorem HasD.cross {f g : ℝ → V 3} {f' g' : V 3} (hf : HasD f f') (hg : HasD g g') :
    HasD (fun t => cross (f t) (g t)) (cross f' (g 0) + cross (f 0) g') := by
  intro i
  rcases (by omega : i = 0 ∨ i = 1 ∨ i = 2) with rfl | rfl | rfl
  · refine (((hf 1).mul (hg 2)).sub ((hf 2).mul (hg 1))).congr_deriv ?_
    simp only [Rotation.cross, Pi.add_apply, Matrix.cons_val_zero, Matrix.cons_val_one, Matrix.cons_val]; ring
  · refine (((hf 2).mul (hg 0)).sub ((hf 0).mul (hg 2))).congr_deriv ?_
    simp only [Rotation.cross, Pi.add_apply, Matrix.cons_val_zero, Matrix.cons_val_one, Matrix.cons_val]; ring
  · refine (((hf 0).mul (hg 1)).sub ((hf 1).mul (hg 0))).congr_deriv ?_
    simp only [Rotation.cross, Pi.add_apply, Matrix.cons_val_zero, Matrix.cons_val_one, Matrix.cons_val]; ring

theorem HasD.nsq {f : ℝ → V 3} {f' : V 3} (hf : HasD f f') : HasDerivAt (fun t => nsq3 (f t)) (2 * dot3 (f 0) f') 0 := by
  have e : ∀ a : V 3, nsq3 a = dot3 a a := fun a => rfl
  simp only [e]
  refine (hf.dot hf).congr_deriv ?_
  simp only [dot3]; ring

theorem HasD.norm {f : ℝ → V 3} {f' : V 3} (hf : HasD f f') (h : 0 < nsq3 (f 0)) : HasDerivAt (fun t => norm (f t)) (dot3 (f 0) f' / norm (f 0)) 0 := by
  have := hf.nsq.sqrt h.ne'
  refine this.congr_deriv ?_
  have := norm_pos h
  change 2 * dot3 (f 0) f' / (2 * Dihedral.norm (f 0)) = _
  field_simp

theorem arg_deriv {f g : ℝ → ℝ} {f' g' : ℝ} (hf : HasDerivAt f f' 0) (hg : HasDerivAt g g' 0) (h : (⟨f 0, g 0⟩ : ℂ) ∈ Complex.slitPlane) :
    HasDerivAt (fun t => Complex.arg ⟨f t, g t⟩) ((f 0 * g' - g 0 * f') / (f 0 ^ 2 + g 0 ^ 2)) 0 := by
  have hz : HasDerivAt (fun t => (f t : ℂ) + (g t : ℂ) * Complex.I) ((f' : ℂ) + (g' : ℂ) * Complex.I) 0 :=
    hf.ofReal_comp.add (hg.ofReal_comp.mul_const Complex.I)
  have e : ∀ x y : ℝ, ((x : ℂ) + (y : ℂ) * Complex.I) = ⟨x, y⟩ := fun x y => (Complex.mk_eq_add_mul_I x y).symm
  simp only [e] at hz
  have hl := hz.clog_real h
  have hi := Complex.imCLM.hasFDerivAt.comp_hasDerivAt (0 : ℝ) hl
  have he : (⇑Complex.imCLM ∘ fun t => Complex.log ⟨f t, g t⟩) = fun t => Complex.arg ⟨f t, g t⟩ := by
    funext t; exact Complex.log_im _
  rw [he] at hi
  refine hi.congr_deriv ?_
  simp only [Complex.imCLM_apply, Complex.div_im, Complex.normSq_mk]
  ring

theorem id1 (e0 e1 e2 d : V 3) :
    -(dot3 (cross e0 e1) (cross e2 e0) * dot3 (cross e2 e0) d) + dot3 (cross e2 e0) e1 * dot3 (cross e0 d) (cross e2 e0) = -(nsq3 (cross e2 e0) * dot3 (cross e0 e1) d) := by
  simp only [cross, dot3, nsq3, Matrix.cons_val_zero, Matrix.cons_val_one, Matrix.cons_val]; ring

theorem id2 (e0 e1 e2 d : V 3) :
    -(dot3 (cross e0 e1) (cross e2 e0) * dot3 (cross d e0) e1) + dot3 (cross e2 e0) e1 * dot3 (cross e0 e1) (cross d e0) = -(nsq3 (cross e0 e1) * dot3 (cross e2 e0) d) := by
  simp only [cross, dot3, nsq3, Matrix.cons_val_zero, Matrix.cons_val_one, Matrix.cons_val]; ring

theorem id0 (e0 e1 e2 d : V 3) :
    dot3 (cross e0 e1) (cross e2 e0) * (-(dot3 e0 d * dot3 (cross e2 e0) e1) - nsq3 e0 * dot3 (cross e2 d) e1) +
      nsq3 e0 * dot3 (cross e2 e0) e1 * (dot3 (cross d e1) (cross e2 e0) + dot3 (cross e0 e1) (cross e2 d)) =
    dot3 e0 e1 * nsq3 (cross e2 e0) * dot3 (cross e0 e1) d + dot3 e0 e2 * nsq3 (cross e0 e1) * dot3 (cross e2 e0) d := by
  simp only [cross, dot3, nsq3, Matrix.cons_val_zero, Matrix.cons_val_one, Matrix.cons_val]; ring

theorem dot_smul_left (k : ℝ) (a b : V 3) : dot3 (k • a) b = k * dot3 a b := by
  simp only [dot3, Pi.smul_apply, smul_eq_mul]; ring

theorem dot_sub_left (a b c : V 3) : dot3 (a - b) c = dot3 a c - dot3 b c := by
  simp only [dot3, Pi.sub_apply]; ring

theorem dot_sub_right (a b c : V 3) : dot3 a (b - c) = dot3 a b - dot3 a c := by
  simp only [dot3, Pi.sub_apply]; ring

theorem dot_add_left (a b c : V 3) : dot3 (a + b) c = dot3 a c + dot3 b c := by
  simp only [dot3, Pi.add_apply]; ring

theorem dot_add_right (a b c : V 3) : dot3 a (b + c) = dot3 a b + dot3 a c := by
  simp only [dot3, Pi.add_apply]; ring

/-- The derivative of the argument, in terms of the edges. -/
theorem point_deriv {f0 f1 f2 : ℝ → V 3} {d0 d1 d2 : V 3} (h0 : HasD f0 d0) (h1 : HasD f1 d1) (h2 : HasD f2 d2)
    (ha : 0 < nsq3 (cross (f0 0) (f1 0))) (hb : 0 < nsq3 (cross (f2 0) (f0 0))) (hs : point (f0 0) (f1 0) (f2 0) ∈ Complex.slitPlane) :
    HasDerivAt (fun t => Complex.arg (point (f0 t) (f1 t) (f2 t)))
      (dot3 (cross (f0 0) (f1 0)) (-(norm (f0 0) / nsq3 (cross (f0 0) (f1 0))) • d1 + (dot3 (f0 0) (f1 0) / (norm (f0 0) * nsq3 (cross (f0 0) (f1 0)))) • d0) +
       dot3 (cross (f2 0) (f0 0)) (-(norm (f0 0) / nsq3 (cross (f2 0) (f0 0))) • d2 + (dot3 (f0 0) (f2 0) / (norm (f0 0) * nsq3 (cross (f2 0) (f0 0)))) • d0)) 0 := by
  have hl := edge_pos ha
  have hL := norm_pos hl
  have hre := (h0.cross h1).dot (h2.cross h0)
  have him := (h0.norm hl).mul ((h2.cross h0).dot h1).neg
  refine (arg_deriv hre him hs).congr_deriv ?_
  have i1 := id1 (f0 0) (f1 0) (f2 0) d1
  have i2 := id2 (f0 0) (f1 0) (f2 0) d2
  have i0 := id0 (f0 0) (f1 0) (f2 0) d0
  have hab := lagrange (f0 0) (f1 0) (f2 0)
  have hden : dot3 (cross (f0 0) (f1 0)) (cross (f2 0) (f0 0)) ^ 2 + (norm (f0 0) * -dot3 (cross (f2 0) (f0 0)) (f1 0)) ^ 2 = nsq3 (cross (f0 0) (f1 0)) * nsq3 (cross (f2 0) (f0 0)) := by
    rw [hab, ← norm_sq (f0 0)]; ring
  simp only [Pi.mul_apply, Pi.neg_apply]
  rw [hden]
  simp only [dot_add_left, dot_add_right] at *
  have sr : ∀ (k : ℝ) (a b : V 3), dot3 a (k • b) = k * dot3 a b := fun k a b => by simp only [dot3, Pi.smul_apply, smul_eq_mul]; ring
  simp only [sr]
  rw [← norm_sq (f0 0)] at i0
  generalize dot3 (cross (f0 0) (f1 0)) (cross (f2 0) (f0 0)) = c at *
  generalize dot3 (cross (f2 0) (f0 0)) (f1 0) = S at *
  generalize nsq3 (cross (f0 0) (f1 0)) = a at *
  generalize nsq3 (cross (f2 0) (f0 0)) = b at *
  generalize norm (f0 0) = L at *
  field_simp
  linear_combination i0 + L ^ 2 * i1 + L ^ 2 * i2

end Verif.Dihedral
