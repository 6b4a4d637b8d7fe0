import Verif.Proof.Mpm
import Mathlib.Algebra.Order.BigOperators.Group.List

/-! Helper lemmas for a whole step. -/
namespace Verif.Mpm

/-! ### One node -/

theorem pt_add (f : Lin) (g : Grid) (i k : I3) (n : Node) : f.eval (g.add i n k) = f.eval (g k) + if i = k then f.eval n else 0 := by
  unfold Grid.add
  by_cases h : k = i
  · rw [if_pos h, if_pos h.symm, lin_add]
  · rw [if_neg h, if_neg fun e => h e.symm, add_zero]

theorem pt_fold (f : Lin) (c : Loc → I3) (n : Loc → Node) (ls : List Loc) (g : Grid) (k : I3) :
    f.eval (ls.foldl (fun g l => g.add (c l) (n l)) g k) = f.eval (g k) + (ls.map fun l => if c l = k then f.eval (n l) else 0).sum := by
  induction ls generalizing g with
  | nil => simp
  | cons l ls ih => rw [List.foldl_cons, ih, pt_add, List.map_cons, List.sum_cons, add_assoc]

theorem pt_p2g (f : Lin) (dx dt : ℝ) (stress : Particle → V9) (ps : List Particle) (g : Grid) (k : I3) :
    f.eval (p2g dx dt stress ps g k) = f.eval (g k) + (ps.map fun p => ∑ l, if coord dx p.pos l = k then f.eval (p2gAdd dx dt (stress p) p l) else 0).sum := by
  induction ps generalizing g with
  | nil => simp [p2g]
  | cons p ps ih =>
    have e : p2g dx dt stress (p :: ps) g = p2g dx dt stress ps (p2g1 dx dt (stress p) p g) := rfl
    rw [e, ih, p2g1, pt_fold, sum_range, List.map_cons, List.sum_cons, add_assoc]

def massLin : Lin := ⟨1, 0, 0⟩
def mvLin (w : V3) : Lin := ⟨0, w, 0⟩
def rhsLin (w : V3) : Lin := ⟨0, 0, w⟩

theorem massLin_eval (n : Node) : massLin.eval n = n.mass := by simp [massLin, Lin.eval]
theorem mvLin_eval (w : V3) (n : Node) : (mvLin w).eval n = ∑ d, w d * n.mv d := by simp [mvLin, Lin.eval]
theorem rhsLin_eval (w : V3) (n : Node) : (rhsLin w).eval n = ∑ d, w d * n.rhs d := by simp [rhsLin, Lin.eval]

theorem single_sum (d : Fin 3) (v : V3) : ∑ e, (Pi.single d 1 : V3) e * v e = v d := by
  rw [Finset.sum_eq_single d]
  · simp
  · intro e _ h; simp [h]
  · simp

theorem node_ext {a b : Node} (h : ∀ f : Lin, f.eval a = f.eval b) : a = b := by
  have h0 : a.mass = b.mass := by have := h massLin; rwa [massLin_eval, massLin_eval] at this
  have h1 : a.mv = b.mv := funext fun d => by have := h (mvLin (Pi.single d 1)); rwa [mvLin_eval, mvLin_eval, single_sum, single_sum] at this
  have h2 : a.rhs = b.rhs := funext fun d => by have := h (rhsLin (Pi.single d 1)); rwa [rhsLin_eval, rhsLin_eval, single_sum, single_sum] at this
  cases a; cases b; simp_all

/-- A node without mass has no momentum. -/
theorem massless {dx dt : ℝ} {stress : Particle → V9} {ps : List Particle} (hm : ∀ p ∈ ps, 0 ≤ p.mass) {k : I3} (h : (p2g dx dt stress ps zero k).mass = 0) (d : Fin 3) :
    (p2g dx dt stress ps zero k).mv d = 0 := by
  have h1 := pt_p2g massLin dx dt stress ps zero k
  have h2 := pt_p2g (mvLin (Pi.single d 1)) dx dt stress ps zero k
  rw [massLin_eval, massLin_eval, h] at h1
  rw [mvLin_eval, mvLin_eval, single_sum, single_sum] at h2
  rw [h2]
  simp only [zero, Pi.zero_apply, zero_add] at h1 ⊢
  apply List.sum_eq_zero
  intro x hx
  obtain ⟨p, hp, rfl⟩ := List.mem_map.1 hx
  have hnn : ∀ l, 0 ≤ if coord dx p.pos l = k then massLin.eval (p2gAdd dx dt (stress p) p l) else 0 := by
    intro l; split
    · rw [massLin_eval]; exact mul_nonneg (hm p hp) (weight_nonneg dx p.pos l)
    · exact le_rfl
  have hall : ∀ y ∈ ps.map fun p => ∑ l, if coord dx p.pos l = k then massLin.eval (p2gAdd dx dt (stress p) p l) else 0, 0 ≤ y := by
    intro y hy
    obtain ⟨q, hq, rfl⟩ := List.mem_map.1 hy
    refine Finset.sum_nonneg fun l _ => ?_
    split
    · rw [massLin_eval]; exact mul_nonneg (hm q hq) (weight_nonneg dx q.pos l)
    · exact le_rfl
  have hz := List.all_zero_of_le_zero_le_of_sum_eq_zero hall h1.symm (List.mem_map.2 ⟨p, hp, rfl⟩)
  have hz' := (Finset.sum_eq_zero_iff_of_nonneg fun l _ => hnn l).1 hz
  refine Finset.sum_eq_zero fun l _ => ?_
  have := hz' l (Finset.mem_univ l)
  split
  · rename_i hc
    rw [if_pos hc, massLin_eval] at this
    have e : p.mass * weight dx p.pos l = 0 := this
    rw [mvLin_eval, single_sum]
    simp only [p2gAdd]
    rw [mul_comm (weight dx p.pos l), e, zero_mul]
  · rfl

/-- The momentum of a node and its velocity. -/
theorem mass_velocity {dx dt : ℝ} {stress : Particle → V9} {ps : List Particle} (hm : ∀ p ∈ ps, 0 ≤ p.mass) (extf : V3) (k : I3) (d : Fin 3) :
    (p2g dx dt stress ps zero k).mass * (velocity dt extf (p2g dx dt stress ps zero) k).mv d =
      (p2g dx dt stress ps zero k).mv d + (p2g dx dt stress ps zero k).mass * (extf d * dt) := by
  simp only [velocity, nodeVelocity]
  by_cases h : (p2g dx dt stress ps zero k).mass = 0
  · rw [if_neg (not_not.2 h), massless hm h d, h]; ring
  · rw [if_pos h]
    field_simp

/-- The nodes that the particles touch. -/
theorem covers_exists (dx : ℝ) (ps : List Particle) : ∃ nodes, Covers dx ps nodes := by
  classical
  refine ⟨(ps.flatMap fun p => range.map fun l => coord dx p.pos l).toFinset, fun p hp l => ?_⟩
  rw [List.mem_toFinset, List.mem_flatMap]
  exact ⟨p, hp, List.mem_map.2 ⟨l, range_mem l, rfl⟩⟩

/-! ### Cross products -/

theorem cross_sum {ι : Type} (s : Finset ι) (a : V3) (w : ι → ℝ) (v : ι → V3) (d : Fin 3) : cross a (fun e => ∑ l ∈ s, w l * v l e) d = ∑ l ∈ s, w l * cross a (v l) d := by
  fin_cases d <;> simp only [cross, Fin.zero_eta, Fin.mk_one, Fin.reduceFinMk, Matrix.cons_val_zero, Matrix.cons_val_one, Matrix.cons_val, Finset.mul_sum] <;>
    (rw [← Finset.sum_sub_distrib]; exact Finset.sum_congr rfl fun l _ => by ring)

/-- Coefficients of one component of a cross product. -/
def crossRow (x : V3) (d : Fin 3) : V3 := fun e => cross x (Pi.single e 1) d

theorem crossRow_sum (x v : V3) (d : Fin 3) : ∑ e, crossRow x d e * v e = cross x v d := by
  rw [Fin.sum_univ_three]
  fin_cases d <;> simp [crossRow, cross, Pi.single_apply] <;> ring

theorem cross_add (a b v : V3) (d : Fin 3) : cross (fun e => a e + b e) v d = cross a v d + cross b v d := by
  fin_cases d <;> simp only [cross, Fin.zero_eta, Fin.mk_one, Fin.reduceFinMk, Matrix.cons_val_zero, Matrix.cons_val_one, Matrix.cons_val] <;> ring

theorem cross_self_add (a v : V3) (t : ℝ) (d : Fin 3) : cross (fun e => a e + v e * t) v d = cross a v d := by
  fin_cases d <;> simp only [cross, Fin.zero_eta, Fin.mk_one, Fin.reduceFinMk, Matrix.cons_val_zero, Matrix.cons_val_one, Matrix.cons_val] <;> ring

/-- Distances times a field, as a cross product. -/
theorem axial_moment (dx : ℝ) (pos : V3) (u : Loc → V3) (c : V9) {t : ℝ} (h : ∀ i j, ∑ l, weight dx pos l * diff dx pos l j * u l i = t * mat c i j) (d : Fin 3) :
    ∑ l, weight dx pos l * cross (diff dx pos l) (u l) d = t * axial c d := by
  have key : ∀ i j, ∑ l, weight dx pos l * (diff dx pos l j * u l i - diff dx pos l i * u l j) = t * (mat c i j - mat c j i) := by
    intro i j
    rw [mul_sub, ← h i j, ← h j i, ← Finset.sum_sub_distrib]
    exact Finset.sum_congr rfl fun l _ => by ring
  fin_cases d
  · exact key 2 1
  · exact key 0 2
  · exact key 1 0

theorem node_cross {dx : ℝ} (hdx : dx ≠ 0) (pos : V3) (u : Loc → V3) (v : V3) (c : V9) {t : ℝ} (h0 : ∀ i, ∑ l, weight dx pos l * u l i = v i)
    (h : ∀ i j, ∑ l, weight dx pos l * diff dx pos l j * u l i = t * mat c i j) (d : Fin 3) :
    ∑ l, weight dx pos l * cross (nodePos dx (coord dx pos l)) (u l) d = cross pos v d + t * axial c d := by
  have e : ∀ l, weight dx pos l * cross (nodePos dx (coord dx pos l)) (u l) d = weight dx pos l * cross pos (u l) d + weight dx pos l * cross (diff dx pos l) (u l) d := by
    intro l
    have : nodePos dx (coord dx pos l) = fun e => pos e + diff dx pos l e := funext fun e => diff_pos hdx pos l e
    rw [this, cross_add, mul_add]
  rw [Finset.sum_congr rfl fun l _ => e l, Finset.sum_add_distrib, axial_moment dx pos u c h, ← cross_sum]
  have : (fun e => ∑ l, weight dx pos l * u l e) = v := funext h0
  rw [this]

/-- Moments of what is gathered. -/
theorem gather_moment (dx : ℝ) (g : Grid) (pos : V3) (d : Fin 3) : ∑ l, weight dx pos l * (g (coord dx pos l)).mv d = gather dx g pos d := by
  rw [gather_eq]; exact Finset.sum_congr rfl fun l _ => by ring

theorem gatherC_moment {dx : ℝ} (hdx : dx ≠ 0) (g : Grid) (pos : V3) (i j : Fin 3) :
    ∑ l, weight dx pos l * diff dx pos l j * (g (coord dx pos l)).mv i = dx ^ 2 / 4 * mat (gatherC dx g pos) i j := by
  rw [mat_gatherC, ← Finset.sum_mul]
  have e : ∑ l, weight dx pos l * diff dx pos l j * (g (coord dx pos l)).mv i = ∑ l, weight dx pos l * (g (coord dx pos l)).mv i * diff dx pos l j :=
    Finset.sum_congr rfl fun l _ => by ring
  rw [e]
  have := dInv_eq hdx
  linear_combination -(∑ l, weight dx pos l * (g (coord dx pos l)).mv i * diff dx pos l j) * this

/-! ### Energy -/

theorem sum_mat_sq (c : V9) : ∑ i, ∑ j, mat c i j ^ 2 = ∑ k, c k ^ 2 := by
  simp only [Fin.sum_univ_three, mat]
  simp [Fin.sum_univ_succ]
  ring

/-- The squares of an affine field. -/
theorem affine_sq (dx : ℝ) (pos vel : V3) (c : V9) (d : Fin 3) :
    ∑ l, weight dx pos l * (vel d + apply9 c (diff dx pos l) d) ^ 2 = vel d ^ 2 + dx ^ 2 / 4 * ∑ j, mat c d j ^ 2 := by
  have e : ∀ l, weight dx pos l * (vel d + apply9 c (diff dx pos l) d) ^ 2 =
      vel d * (weight dx pos l * (vel d + apply9 c (diff dx pos l) d)) + ∑ j, mat c d j * (weight dx pos l * diff dx pos l j * (vel d + apply9 c (diff dx pos l) d)) := by
    intro l
    have : ∀ t, ∑ j, mat c d j * (weight dx pos l * diff dx pos l j * t) = weight dx pos l * t * apply9 c (diff dx pos l) d := by
      intro t
      rw [apply9_eq, Finset.mul_sum]
      exact Finset.sum_congr rfl fun j _ => by ring
    rw [this]; ring
  rw [Finset.sum_congr rfl fun l _ => e l, Finset.sum_add_distrib, ← Finset.mul_sum, mom_vel, Finset.sum_comm]
  simp only [← Finset.mul_sum, mom_diff]
  rw [Finset.mul_sum]
  congr 1
  · ring
  · exact Finset.sum_congr rfl fun j _ => by ring

/-- What is gathered has no more energy than the field. -/
theorem bessel {dx : ℝ} (hdx : dx ≠ 0) (g : Grid) (pos : V3) (d : Fin 3) :
    gather dx g pos d ^ 2 + dx ^ 2 / 4 * ∑ j, mat (gatherC dx g pos) d j ^ 2 ≤ ∑ l, weight dx pos l * (g (coord dx pos l)).mv d ^ 2 := by
  have h : 0 ≤ ∑ l, weight dx pos l * ((g (coord dx pos l)).mv d - (gather dx g pos d + apply9 (gatherC dx g pos) (diff dx pos l) d)) ^ 2 :=
    Finset.sum_nonneg fun l _ => mul_nonneg (weight_nonneg _ _ _) (sq_nonneg _)
  have e : ∀ l, weight dx pos l * ((g (coord dx pos l)).mv d - (gather dx g pos d + apply9 (gatherC dx g pos) (diff dx pos l) d)) ^ 2 =
      weight dx pos l * (g (coord dx pos l)).mv d ^ 2 - 2 * gather dx g pos d * (weight dx pos l * (g (coord dx pos l)).mv d)
        - 2 * (∑ j, mat (gatherC dx g pos) d j * (weight dx pos l * diff dx pos l j * (g (coord dx pos l)).mv d))
        + weight dx pos l * (gather dx g pos d + apply9 (gatherC dx g pos) (diff dx pos l) d) ^ 2 := by
    intro l
    have : ∑ j, mat (gatherC dx g pos) d j * (weight dx pos l * diff dx pos l j * (g (coord dx pos l)).mv d) = weight dx pos l * (g (coord dx pos l)).mv d * apply9 (gatherC dx g pos) (diff dx pos l) d := by
      rw [apply9_eq, Finset.mul_sum]
      exact Finset.sum_congr rfl fun j _ => by ring
    rw [this]; ring
  rw [Finset.sum_congr rfl fun l _ => e l, Finset.sum_add_distrib, Finset.sum_sub_distrib, Finset.sum_sub_distrib, ← Finset.mul_sum, ← Finset.mul_sum, gather_moment, affine_sq,
    Finset.sum_comm] at h
  simp only [← Finset.mul_sum, gatherC_moment hdx] at h
  have e2 : ∑ j, mat (gatherC dx g pos) d j * (dx ^ 2 / 4 * mat (gatherC dx g pos) d j) = dx ^ 2 / 4 * ∑ j, mat (gatherC dx g pos) d j ^ 2 := by
    rw [Finset.mul_sum]; exact Finset.sum_congr rfl fun j _ => by ring
  rw [e2] at h
  linarith

end Verif.Mpm
