import Verif.Proof.MpmStep
import Mathlib.Data.Matrix.Mul
import Mathlib.Data.Matrix.Diagonal
import Mathlib.LinearAlgebra.Matrix.Trace

/-!
Transfers between particles and grid.

Totals over the grid are over any finite set of nodes that contains those of the particles.  `gather` and `gatherC` are what `G2PTransfer` computes.
-/
namespace Verif.Mpm

/-! ### Particles to grid -/

/-- The weights of the twenty-seven nodes are not negative and add up to one, and the node is where the particle plus the difference is. -/
theorem arena {dx : ℝ} (h : dx ≠ 0) (pos : V3) :
    (∀ l, 0 ≤ weight dx pos l) ∧ (range.map (weight dx pos)).sum = 1 ∧ range.length = 27 ∧ ∀ l d, nodePos dx (coord dx pos l) d = pos d + diff dx pos l d :=
  ⟨weight_nonneg dx pos, by rw [sum_range, sum_weight], by decide +kernel, diff_pos h pos⟩

/-- The grid has the mass of the particles. -/
theorem p2g_mass (dx dt : ℝ) (stress : Particle → V9) {ps : List Particle} {nodes : Finset I3} (h : Covers dx ps nodes) (g : Grid) :
    ∑ k ∈ nodes, (p2g dx dt stress ps g k).mass = ∑ k ∈ nodes, (g k).mass + totalMass ps := by
  have := total_p2g (fun _ => massLin) dx dt stress h g
  simp only [massLin_eval] at this
  rw [this, totalMass]
  congr 3
  funext p
  simp only [p2gAdd]
  rw [← Finset.mul_sum, sum_weight, mul_one]

/-- The grid has the momentum of the particles. -/
theorem p2g_momentum (dx dt : ℝ) (stress : Particle → V9) {ps : List Particle} {nodes : Finset I3} (h : Covers dx ps nodes) (g : Grid) (d : Fin 3) :
    ∑ k ∈ nodes, (p2g dx dt stress ps g k).mv d = ∑ k ∈ nodes, (g k).mv d + totalMomentum ps d := by
  have := total_p2g (fun _ => mvLin (Pi.single d 1)) dx dt stress h g
  simp only [mvLin_eval, single_sum] at this
  rw [this, totalMomentum]
  congr 3
  funext p
  simp only [p2gAdd]
  refine Eq.trans ?_ (congrArg (p.mass * ·) (mom_vel dx p.pos p.vel p.C d))
  simp only [Finset.mul_sum]
  exact Finset.sum_congr rfl fun l _ => by ring

/-- The grid has the angular momentum of the particles, including that of their affine fields. -/
theorem p2g_angular {dx : ℝ} (hdx : dx ≠ 0) (dt : ℝ) (stress : Particle → V9) {ps : List Particle} {nodes : Finset I3} (h : Covers dx ps nodes) (g : Grid) (d : Fin 3) :
    ∑ k ∈ nodes, cross (nodePos dx k) (p2g dx dt stress ps g k).mv d = ∑ k ∈ nodes, cross (nodePos dx k) (g k).mv d + totalAngular dx ps d := by
  have := total_p2g (fun k => mvLin (crossRow (nodePos dx k) d)) dx dt stress h g
  simp only [mvLin_eval, crossRow_sum] at this
  rw [this, totalAngular]
  congr 3
  funext p
  rw [← node_cross hdx p.pos (fun l e => p.vel e + apply9 p.C (diff dx p.pos l) e) p.vel p.C (fun i => mom_vel dx p.pos p.vel p.C i) (fun i j => mom_diff dx p.pos p.vel p.C i j) d, Finset.mul_sum]
  refine Finset.sum_congr rfl fun l _ => ?_
  simp only [p2gAdd]
  fin_cases d <;> simp only [cross, Fin.zero_eta, Fin.mk_one, Fin.reduceFinMk, Matrix.cons_val_zero, Matrix.cons_val_one, Matrix.cons_val] <;> ring

/-- The stress adds no momentum. -/
theorem p2g_force (dx dt : ℝ) (stress : Particle → V9) {ps : List Particle} {nodes : Finset I3} (h : Covers dx ps nodes) (g : Grid) (d : Fin 3) :
    ∑ k ∈ nodes, (p2g dx dt stress ps g k).rhs d = ∑ k ∈ nodes, (g k).rhs d := by
  have := total_p2g (fun _ => rhsLin (Pi.single d 1)) dx dt stress h g
  simp only [rhsLin_eval, single_sum] at this
  rw [this]
  have z : ∀ p ∈ ps, ∑ l, (p2gAdd dx dt (stress p) p l).rhs d = 0 := by
    intro p _
    have := mom_vel dx p.pos 0 (fun k => stress p k * -dt * dInv dx) d
    simp only [Pi.zero_apply, zero_add] at this
    rw [← this]
    exact Finset.sum_congr rfl fun l _ => by simp only [p2gAdd]; ring
  rw [List.map_congr_left z]; simp

/-- A symmetric stress adds no angular momentum. -/
theorem p2g_torque {dx : ℝ} (hdx : dx ≠ 0) (dt : ℝ) {stress : Particle → V9} {ps : List Particle} (hs : ∀ p ∈ ps, Symmetric (stress p)) {nodes : Finset I3} (h : Covers dx ps nodes) (g : Grid) (d : Fin 3) :
    ∑ k ∈ nodes, cross (nodePos dx k) (p2g dx dt stress ps g k).rhs d = ∑ k ∈ nodes, cross (nodePos dx k) (g k).rhs d := by
  have := total_p2g (fun k => rhsLin (crossRow (nodePos dx k) d)) dx dt stress h g
  simp only [rhsLin_eval, crossRow_sum] at this
  rw [this]
  have z : ∀ p ∈ ps, ∑ l, cross (nodePos dx (coord dx p.pos l)) (p2gAdd dx dt (stress p) p l).rhs d = 0 := by
    intro p hp
    have hv := fun i => mom_vel dx p.pos 0 (fun k => stress p k * -dt * dInv dx) i
    have hd := fun i j => mom_diff dx p.pos 0 (fun k => stress p k * -dt * dInv dx) i j
    simp only [Pi.zero_apply, zero_add] at hv hd
    have key := node_cross hdx p.pos (fun l e => apply9 (fun k => stress p k * -dt * dInv dx) (diff dx p.pos l) e) 0 (fun k => stress p k * -dt * dInv dx) hv hd d
    have hsym : ∀ i j, mat (fun k => stress p k * -dt * dInv dx) i j = mat (fun k => stress p k * -dt * dInv dx) j i := by
      intro i j
      have := congrFun (congrFun (hs p hp) j) i
      change mat (stress p) i j * -dt * dInv dx = mat (stress p) j i * -dt * dInv dx
      rw [← this]; rfl
    have hax : axial (fun k => stress p k * -dt * dInv dx) d = 0 := by
      fin_cases d
      · exact sub_eq_zero.2 (hsym 2 1)
      · exact sub_eq_zero.2 (hsym 0 2)
      · exact sub_eq_zero.2 (hsym 1 0)
    have hc0 : cross p.pos 0 d = 0 := by fin_cases d <;> simp [cross]
    rw [hax, hc0] at key
    rw [show (0 : ℝ) = 0 + dx ^ 2 / 4 * 0 by ring, ← key]
    refine Finset.sum_congr rfl fun l _ => ?_
    simp only [p2gAdd]
    fin_cases d <;> simp only [cross, Fin.zero_eta, Fin.mk_one, Fin.reduceFinMk, Matrix.cons_val_zero, Matrix.cons_val_one, Matrix.cons_val] <;> ring
  rw [List.map_congr_left z]; simp

/-- The work of the stress on any velocities of the grid is that of the stress on the gradient that the transfer back computes. -/
theorem stress_power (dx dt : ℝ) (stress : Particle → V9) {ps : List Particle} {nodes : Finset I3} (h : Covers dx ps nodes) (v : Grid) :
    ∑ k ∈ nodes, ∑ d, (v k).mv d * (p2g dx dt stress ps zero k).rhs d = -dt * (ps.map fun p => ∑ i, ∑ j, mat (stress p) i j * mat (gatherC dx v p.pos) i j).sum := by
  have := total_p2g (fun k => rhsLin (v k).mv) dx dt stress h zero
  rw [total_zero] at this
  simp only [rhsLin_eval] at this
  rw [this, zero_add, ← List.sum_map_mul_left]
  congr 2
  funext p
  have e : ∀ i, ∑ j, mat (stress p) i j * mat (gatherC dx v p.pos) i j = ∑ l, (v (coord dx p.pos l)).mv i * (∑ j, mat (stress p) i j * diff dx p.pos l j) * (weight dx p.pos l * dInv dx) := by
    intro i
    have : ∀ l, (v (coord dx p.pos l)).mv i * (∑ j, mat (stress p) i j * diff dx p.pos l j) * (weight dx p.pos l * dInv dx) =
        ∑ j, mat (stress p) i j * (weight dx p.pos l * (v (coord dx p.pos l)).mv i * diff dx p.pos l j * dInv dx) := by
      intro l; rw [Finset.mul_sum, Finset.sum_mul]; exact Finset.sum_congr rfl fun j _ => by ring
    rw [Finset.sum_congr rfl fun l _ => this l, Finset.sum_comm]
    exact Finset.sum_congr rfl fun j _ => by rw [mat_gatherC, Finset.mul_sum]
  rw [Finset.sum_congr rfl fun i _ => e i, Finset.mul_sum, Finset.sum_comm]
  refine Finset.sum_congr rfl fun i _ => ?_
  rw [Finset.mul_sum]
  refine Finset.sum_congr rfl fun l _ => ?_
  simp only [p2gAdd, apply9_eq]
  have : ∑ j, mat (fun k => stress p k * -dt * dInv dx) i j * diff dx p.pos l j = -dt * dInv dx * ∑ j, mat (stress p) i j * diff dx p.pos l j := by
    rw [Finset.mul_sum]; exact Finset.sum_congr rfl fun j _ => by simp only [mat]; ring
  rw [this]; ring

/-- The order of the particles does not matter. -/
theorem p2g_order (dx dt : ℝ) (stress : Particle → V9) {ps qs : List Particle} (h : ps.Perm qs) (g : Grid) : p2g dx dt stress ps g = p2g dx dt stress qs g := by
  funext k
  apply node_ext
  intro f
  rw [pt_p2g, pt_p2g, (h.map _).sum_eq]

/-- Nodes that no particle touches stay as they are. -/
theorem p2g_outside (dx dt : ℝ) (stress : Particle → V9) {ps : List Particle} {k : I3} (h : ∀ p ∈ ps, ∀ l, coord dx p.pos l ≠ k) (g : Grid) : p2g dx dt stress ps g k = g k := by
  apply node_ext
  intro f
  rw [pt_p2g]
  have z : ∀ p ∈ ps, (∑ l, if coord dx p.pos l = k then f.eval (p2gAdd dx dt (stress p) p l) else 0) = 0 :=
    fun p hp => Finset.sum_eq_zero fun l _ => if_neg (h p hp l)
  rw [List.map_congr_left z]; simp

/-- The stress of the equation of state is symmetric. -/
theorem eos_symmetric (m : Eos) (p : Particle) : Symmetric (eosStress m p) := by
  unfold Symmetric
  ext i j
  fin_cases i <;> fin_cases j <;> simp [mat, eosStress, Matrix.transpose, add_comm]

/-- The stress of the corotated model is `volume U P̂ S Uᵀ`, and so symmetric, if the decomposition is one. -/
theorem corotated_symmetric (volume mu lambda : ℝ) {u v f : V9} {s : V3} (hf : mat f = mat u * Matrix.diagonal s * (mat v).transpose) (hv : (mat v).transpose * mat v = 1) :
    mat (corotatedStress volume mu lambda u s v f) = volume • (mat u * Matrix.diagonal (fun d => pHat mu lambda s d * s d) * (mat u).transpose) ∧
      Symmetric (corotatedStress volume mu lambda u s v f) := by
  have hp : ∀ q : V3, mat (pk1 q u v) = mat u * Matrix.diagonal q * (mat v).transpose := by
    intro q
    ext i j
    rw [Matrix.mul_apply, Fin.sum_univ_three]
    simp only [Matrix.mul_diagonal, Matrix.transpose_apply]
    fin_cases i <;> fin_cases j <;> simp [mat, pk1] <;> ring
  have hc : mat (corotatedStress volume mu lambda u s v f) = volume • (mat (pk1 (pHat mu lambda s) u v) * (mat f).transpose) := by
    ext i j
    rw [Matrix.smul_apply, Matrix.mul_apply, Fin.sum_univ_three]
    simp only [Matrix.transpose_apply, smul_eq_mul]
    fin_cases i <;> fin_cases j <;> simp [mat, corotatedStress] <;> ring
  have e : mat (corotatedStress volume mu lambda u s v f) = volume • (mat u * Matrix.diagonal (fun d => pHat mu lambda s d * s d) * (mat u).transpose) := by
    rw [hc, hp, hf]
    congr 1
    simp only [Matrix.transpose_mul, Matrix.transpose_transpose, Matrix.diagonal_transpose]
    have : mat u * Matrix.diagonal (pHat mu lambda s) * (mat v).transpose * (mat v * (Matrix.diagonal s * (mat u).transpose)) =
        mat u * Matrix.diagonal (pHat mu lambda s) * ((mat v).transpose * mat v) * (Matrix.diagonal s * (mat u).transpose) := by simp only [Matrix.mul_assoc]
    rw [this, hv, Matrix.mul_one, ← Matrix.diagonal_mul_diagonal]
    simp only [Matrix.mul_assoc]
  refine ⟨e, ?_⟩
  unfold Symmetric
  rw [e]
  simp only [Matrix.transpose_smul, Matrix.transpose_mul, Matrix.transpose_transpose, Matrix.diagonal_transpose, Matrix.mul_assoc]

/-- Its principal values are `2 μ (σ - 1) σ + λ (J - 1) J`. -/
theorem corotated_principal (volume mu lambda : ℝ) {u v f : V9} {s : V3} (hf : mat f = mat u * Matrix.diagonal s * (mat v).transpose) (hv : (mat v).transpose * mat v = 1) :
    mat (corotatedStress volume mu lambda u s v f) =
      volume • (mat u * Matrix.diagonal (fun d => 2 * mu * (s d - 1) * s d + lambda * ((∏ i, s i) - 1) * ∏ i, s i) * (mat u).transpose) := by
  rw [(corotated_symmetric volume mu lambda hf hv).1]
  have : (fun d => pHat mu lambda s d * s d) = fun d => 2 * mu * (s d - 1) * s d + lambda * ((∏ i, s i) - 1) * ∏ i, s i := by
    funext d
    rw [Fin.prod_univ_three]
    fin_cases d <;> simp [pHat] <;> ring
  rw [this]

example : ∃ u v f : V9, ∃ s : V3, mat f = mat u * Matrix.diagonal s * (mat v).transpose ∧ (mat v).transpose * mat v = 1 ∧ f 3 = 2 := by
  refine ⟨![0, 1, 0, -1, 0, 0, 0, 0, 1], ![1, 0, 0, 0, 1, 0, 0, 0, 1], ![0, 3, 0, 2, 0, 0, 0, 0, 1], ![3, -2, 1], ?_, ?_, by simp⟩
  · ext i j
    rw [Matrix.mul_apply, Fin.sum_univ_three]
    simp only [Matrix.mul_diagonal, Matrix.transpose_apply]
    fin_cases i <;> fin_cases j <;> simp [mat]
  · ext i j
    rw [Matrix.mul_apply, Fin.sum_univ_three]
    simp only [Matrix.transpose_apply]
    fin_cases i <;> fin_cases j <;> simp [mat]

/-! ### Grid -/

/-- The momenta that the grid reports after the transfer are those of the particles. -/
theorem momenta_exact {dx : ℝ} (hdx : dx ≠ 0) (dt : ℝ) (stress : Particle → V9) {ps : List Particle} (hm : ∀ p ∈ ps, 0 ≤ p.mass) {nodes : List I3} (hn : nodes.Nodup)
    (h : Covers dx ps nodes.toFinset) : momenta dx (p2g dx dt stress ps zero) nodes = (totalAngular dx ps, totalMomentum ps) := by
  have e : ∀ (l : List I3) (s : V3 × V3), l.foldl (fun s i => open Classical in if (p2g dx dt stress ps zero i).mass ≠ 0 then
      (s.1 + cross (nodePos dx i) (p2g dx dt stress ps zero i).mv, s.2 + (p2g dx dt stress ps zero i).mv) else s) s =
      (s.1 + (l.map fun i => cross (nodePos dx i) (p2g dx dt stress ps zero i).mv).sum, s.2 + (l.map fun i => (p2g dx dt stress ps zero i).mv).sum) := by
    intro l
    induction l with
    | nil => simp
    | cons i l ih =>
      intro s
      rw [List.foldl_cons, ih, List.map_cons, List.map_cons, List.sum_cons, List.sum_cons]
      by_cases hz : (p2g dx dt stress ps zero i).mass = 0
      · have h0 : (p2g dx dt stress ps zero i).mv = 0 := funext fun d => massless hm hz d
        have h1 : cross (nodePos dx i) 0 = 0 := by
          funext d; fin_cases d <;> simp [cross]
        rw [if_neg (not_not.2 hz), h0, h1, zero_add, zero_add]
      · rw [if_pos hz, add_assoc, add_assoc]
  unfold momenta
  rw [e, ← List.sum_toFinset _ hn, ← List.sum_toFinset _ hn, zero_add, zero_add]
  refine Prod.ext (funext fun d => ?_) (funext fun d => ?_)
  · change (∑ i ∈ nodes.toFinset, cross (nodePos dx i) (p2g dx dt stress ps zero i).mv) d = _
    rw [Finset.sum_apply, p2g_angular hdx dt stress h zero d]
    have : ∀ k, cross (nodePos dx k) (zero k).mv d = 0 := by
      intro k; fin_cases d <;> simp [cross, zero]
    simp [this]
  · change (∑ i ∈ nodes.toFinset, (p2g dx dt stress ps zero i).mv) d = _
    rw [Finset.sum_apply, p2g_momentum dx dt stress h zero d]
    simp [zero]

/-- The maximum is the largest square of a velocity of a node with mass, or the initial value. -/
theorem maxVelocity_spec (dt : ℝ) (extf : V3) (g : Grid) (nodes : List I3) (m x : ℝ) :
    maxVelocity dt extf g nodes m ≤ x ↔ m ≤ x ∧ ∀ i ∈ nodes, (g i).mass ≠ 0 → ∑ d, (velocity dt extf g i).mv d ^ 2 ≤ x := by
  unfold maxVelocity
  induction nodes generalizing m with
  | nil => simp
  | cons i l ih =>
    rw [List.foldl_cons, ih]
    simp only [List.mem_cons, forall_eq_or_imp, nodeMax, velocity]
    by_cases h : (g i).mass = 0
    · simp [h]
    · rw [if_pos h, max_le_iff, and_assoc]
      simp only [ne_eq, h, not_false_eq_true, forall_true_left, Fin.sum_univ_three, sq]

/-! ### Grid to particles -/

/-- An affine velocity field is reproduced: the particle gets its value and its gradient. -/
theorem g2p_affine {dx : ℝ} (hdx : dx ≠ 0) (dt : ℝ) (g : Grid) (p : Particle) (a : V3) (b : Matrix (Fin 3) (Fin 3) ℝ)
    (h : ∀ l d, (g (coord dx p.pos l)).mv d = a d + ∑ j, b d j * nodePos dx (coord dx p.pos l) j) :
    (∀ d, (g2p dx dt g p).vel d = a d + ∑ j, b d j * p.pos j) ∧ mat (g2p dx dt g p).C = b := by
  have hb : ∃ c : V9, mat c = b := by
    refine ⟨fun k => b ⟨k % 3, by omega⟩ ⟨k / 3, by omega⟩, ?_⟩
    ext i j
    simp only [mat]
    congr 1 <;> exact Fin.ext (by simp only; omega)
  obtain ⟨c, rfl⟩ := hb
  have h' : ∀ l d, (g (coord dx p.pos l)).mv d = (a d + ∑ j, mat c d j * p.pos j) + apply9 c (diff dx p.pos l) d := by
    intro l d
    rw [h, apply9_eq, add_assoc, ← Finset.sum_add_distrib]
    congr 1
    exact Finset.sum_congr rfl fun j _ => by rw [diff_pos hdx]; ring
  constructor
  · intro d
    change gather dx g p.pos d = _
    rw [← gather_moment]
    simp only [h']
    exact mom_vel dx p.pos (fun d => a d + ∑ j, mat c d j * p.pos j) c d
  · ext i j
    change mat (gatherC dx g p.pos) i j = _
    have := gatherC_moment hdx g p.pos i j
    simp only [h'] at this
    rw [mom_diff dx p.pos (fun d => a d + ∑ j, mat c d j * p.pos j) c i j] at this
    have hne : dx ^ 2 / 4 ≠ 0 := by positivity
    exact (mul_left_cancel₀ hne this).symm

example : ∃ (g : Grid) (p : Particle) (a : V3) (b : Matrix (Fin 3) (Fin 3) ℝ), (∀ l d, (g (coord 1 p.pos l)).mv d = a d + ∑ j, b d j * nodePos 1 (coord 1 p.pos l) j) ∧ b 0 1 ≠ 0 :=
  ⟨fun i => ⟨1, fun d => 1 + ∑ j, nodePos 1 i j, 0⟩, ⟨1, 0, 0, 0, 1, 0⟩, fun _ => 1, fun _ _ => 1, fun l d => by simp, one_ne_zero⟩

/-- Position, volume ratio and deformation gradient follow the gathered velocity and its gradient. -/
theorem g2p_update (dx dt : ℝ) (g : Grid) (p : Particle) :
    (g2p dx dt g p).pos = p.pos + dt • (g2p dx dt g p).vel ∧ (g2p dx dt g p).J = (1 + dt * (mat (g2p dx dt g p).C).trace) * p.J ∧
      mat (g2p dx dt g p).F = (1 + dt • mat (g2p dx dt g p).C) * mat p.F ∧ (g2p dx dt g p).mass = p.mass := by
  refine ⟨?_, ?_, ?_, rfl⟩
  · funext d; simp [g2p, mul_comm]
  · have : (mat (g2p dx dt g p).C).trace = (g2p dx dt g p).C 0 + (g2p dx dt g p).C 4 + (g2p dx dt g p).C 8 := by
      rw [Matrix.trace, Fin.sum_univ_three]; rfl
    rw [this]
    change (1 + ((g2p dx dt g p).C 0 + (g2p dx dt g p).C 4 + (g2p dx dt g p).C 8) * dt) * p.J = _
    ring
  · change mat (mul9 (identityPlus dt (g2p dx dt g p).C) p.F) = _
    generalize (g2p dx dt g p).C = c
    have hi : mat (identityPlus dt c) = 1 + dt • mat c := by
      ext i j
      fin_cases i <;> fin_cases j <;> simp [mat, identityPlus] <;> ring
    rw [← hi]
    ext i j
    rw [Matrix.mul_apply, Fin.sum_univ_three]
    fin_cases i <;> fin_cases j <;> simp [mat, mul9]

/-! ### A whole step -/

/-- Momentum changes by gravity only. -/
theorem step_momentum (dx dt : ℝ) (extf : V3) (stress : Particle → V9) {ps : List Particle} (hm : ∀ p ∈ ps, 0 ≤ p.mass) (d : Fin 3) :
    totalMomentum (step dx dt extf stress ps) d = totalMomentum ps d + totalMass ps * (extf d * dt) := by
  obtain ⟨nodes, hc⟩ := covers_exists dx ps
  have hsum := total_p2g (fun k => ⟨(velocity dt extf (p2g dx dt stress ps zero) k).mv d, 0, 0⟩) dx dt stress hc zero
  rw [total_zero, zero_add] at hsum
  simp only [Lin.eval, Pi.zero_apply, zero_mul, Finset.sum_const_zero, add_zero] at hsum
  have e1 : totalMomentum (step dx dt extf stress ps) d =
      (ps.map fun p => ∑ l, (velocity dt extf (p2g dx dt stress ps zero) (coord dx p.pos l)).mv d * (p2gAdd dx dt (stress p) p l).mass).sum := by
    unfold totalMomentum step
    rw [List.map_map]
    congr 2
    funext p
    change p.mass * gather dx _ p.pos d = _
    rw [gather_eq, Finset.mul_sum]
    exact Finset.sum_congr rfl fun l _ => by simp only [p2gAdd]; ring
  rw [e1, ← hsum]
  have e2 : ∀ k, (velocity dt extf (p2g dx dt stress ps zero) k).mv d * (p2g dx dt stress ps zero k).mass =
      (p2g dx dt stress ps zero k).mv d + (p2g dx dt stress ps zero k).mass * (extf d * dt) := by
    intro k; rw [mul_comm]; exact mass_velocity hm extf k d
  rw [Finset.sum_congr rfl fun k _ => e2 k, Finset.sum_add_distrib, ← Finset.sum_mul, p2g_momentum dx dt stress hc zero d, p2g_mass dx dt stress hc zero]
  simp [zero]

/-- Angular momentum is kept without gravity. -/
theorem step_angular {dx : ℝ} (hdx : dx ≠ 0) (dt : ℝ) (stress : Particle → V9) {ps : List Particle} (hm : ∀ p ∈ ps, 0 ≤ p.mass) (d : Fin 3) :
    totalAngular dx (step dx dt 0 stress ps) d = totalAngular dx ps d := by
  obtain ⟨nodes, hc⟩ := covers_exists dx ps
  have hsum := total_p2g (fun k => ⟨cross (nodePos dx k) (velocity dt 0 (p2g dx dt stress ps zero) k).mv d, 0, 0⟩) dx dt stress hc zero
  rw [total_zero, zero_add] at hsum
  simp only [Lin.eval, Pi.zero_apply, zero_mul, Finset.sum_const_zero, add_zero] at hsum
  have e1 : totalAngular dx (step dx dt 0 stress ps) d =
      (ps.map fun p => ∑ l, cross (nodePos dx (coord dx p.pos l)) (velocity dt 0 (p2g dx dt stress ps zero) (coord dx p.pos l)).mv d * (p2gAdd dx dt (stress p) p l).mass).sum := by
    unfold totalAngular step
    rw [List.map_map]
    congr 2
    funext p
    change p.mass * (cross (fun e => p.pos e + gather dx (velocity dt 0 (p2g dx dt stress ps zero)) p.pos e * dt) (gather dx (velocity dt 0 (p2g dx dt stress ps zero)) p.pos) d +
      dx ^ 2 / 4 * axial (gatherC dx (velocity dt 0 (p2g dx dt stress ps zero)) p.pos) d) = _
    rw [cross_self_add, ← node_cross hdx p.pos (fun l => (velocity dt 0 (p2g dx dt stress ps zero) (coord dx p.pos l)).mv) _ _ (fun i => gather_moment dx _ p.pos i)
      (fun i j => gatherC_moment hdx _ p.pos i j) d, Finset.mul_sum]
    exact Finset.sum_congr rfl fun l _ => by simp only [p2gAdd]; ring
  rw [e1, ← hsum]
  have e2 : ∀ k, cross (nodePos dx k) (velocity dt 0 (p2g dx dt stress ps zero) k).mv d * (p2g dx dt stress ps zero k).mass = cross (nodePos dx k) (p2g dx dt stress ps zero k).mv d := by
    intro k
    have hv := fun d => mass_velocity (dx := dx) (dt := dt) (stress := stress) hm 0 k d
    simp only [Pi.zero_apply, zero_mul, mul_zero, add_zero] at hv
    fin_cases d <;> simp only [cross, Fin.zero_eta, Fin.mk_one, Fin.reduceFinMk, Matrix.cons_val_zero, Matrix.cons_val_one, Matrix.cons_val] <;>
      simp only [← hv] <;> ring
  rw [Finset.sum_congr rfl fun k _ => e2 k, p2g_angular hdx dt stress hc zero d]
  have : ∀ k, cross (nodePos dx k) (zero k).mv d = 0 := by
    intro k; fin_cases d <;> simp [cross, zero]
  simp [this]

/-- The hypothesis on the masses is met, with a step that changes something. -/
example : ∃ ps : List Particle, (∀ p ∈ ps, 0 ≤ p.mass) ∧ totalMass ps = 3 ∧ totalMomentum ps 0 = 2 :=
  ⟨[⟨1, 0, fun _ => 2, 0, 1, 0⟩, ⟨2, fun _ => 1, 0, fun _ => 1, 1, 0⟩], by simp, by norm_num [totalMass], by norm_num [totalMomentum]⟩

/-- Kinetic energy does not grow without gravity. -/
theorem step_energy {dx : ℝ} (hdx : dx ≠ 0) (dt : ℝ) (stress : Particle → V9) {ps : List Particle} (hm : ∀ p ∈ ps, 0 ≤ p.mass) :
    totalEnergy dx (step dx dt 0 stress ps) ≤ totalEnergy dx ps := by
  obtain ⟨nodes, hc⟩ := covers_exists dx ps
  have s1 := total_p2g (fun k => ⟨∑ d, (velocity dt 0 (p2g dx dt stress ps zero) k).mv d ^ 2, 0, 0⟩) dx dt stress hc zero
  have s2 := total_p2g (fun k => mvLin (velocity dt 0 (p2g dx dt stress ps zero) k).mv) dx dt stress hc zero
  rw [total_zero, zero_add] at s1 s2
  simp only [mvLin_eval] at s2
  simp only [Lin.eval, Pi.zero_apply, zero_mul, Finset.sum_const_zero, add_zero] at s1
  have hv := fun k d => mass_velocity (dx := dx) (dt := dt) (stress := stress) hm 0 k d
  simp only [Pi.zero_apply, zero_mul, mul_zero, add_zero] at hv
  unfold step
  generalize velocity dt 0 (p2g dx dt stress ps zero) = v at *
  have hvv : ∀ k ∈ nodes, (∑ d, (v k).mv d ^ 2) * (p2g dx dt stress ps zero k).mass = ∑ d, (v k).mv d * (p2g dx dt stress ps zero k).mv d := by
    intro k _
    rw [Finset.sum_mul]
    exact Finset.sum_congr rfl fun d _ => by rw [← hv k d]; ring
  rw [Finset.sum_congr rfl hvv, s2] at s1
  -- the particles gather at most the energy of the grid
  have hb : ∀ p : Particle, ∑ d, gather dx v p.pos d ^ 2 + dx ^ 2 / 4 * ∑ k, gatherC dx v p.pos k ^ 2 ≤ ∑ l, weight dx p.pos l * ∑ d, (v (coord dx p.pos l)).mv d ^ 2 := by
    intro p
    have : ∑ l, weight dx p.pos l * ∑ d, (v (coord dx p.pos l)).mv d ^ 2 = ∑ d, ∑ l, weight dx p.pos l * (v (coord dx p.pos l)).mv d ^ 2 := by
      rw [Finset.sum_comm]; exact Finset.sum_congr rfl fun l _ => by rw [Finset.mul_sum]
    rw [this, ← sum_mat_sq, Finset.mul_sum, ← Finset.sum_add_distrib]
    exact Finset.sum_le_sum fun d _ => bessel hdx v p.pos d
  -- the grid has at most the energy of the particles
  have ha : ∀ p : Particle, 0 ≤ p.mass → p.mass * ∑ l, weight dx p.pos l * ∑ d, (v (coord dx p.pos l)).mv d ^ 2 ≤
      p.mass * (∑ d, p.vel d ^ 2 + dx ^ 2 / 4 * ∑ k, p.C k ^ 2) +
        2 * (∑ l, (∑ d, (v (coord dx p.pos l)).mv d ^ 2) * (p2gAdd dx dt (stress p) p l).mass - ∑ l, ∑ d, (v (coord dx p.pos l)).mv d * (p2gAdd dx dt (stress p) p l).mv d) := by
    intro p hp
    have h0 : 0 ≤ p.mass * ∑ l, weight dx p.pos l * ∑ d, ((p.vel d + apply9 p.C (diff dx p.pos l) d) - (v (coord dx p.pos l)).mv d) ^ 2 :=
      mul_nonneg hp (Finset.sum_nonneg fun l _ => mul_nonneg (weight_nonneg _ _ _) (Finset.sum_nonneg fun d _ => sq_nonneg _))
    have h1 : ∑ d, p.vel d ^ 2 + dx ^ 2 / 4 * ∑ k, p.C k ^ 2 = ∑ l, weight dx p.pos l * ∑ d, (p.vel d + apply9 p.C (diff dx p.pos l) d) ^ 2 := by
      have : ∑ l, weight dx p.pos l * ∑ d, (p.vel d + apply9 p.C (diff dx p.pos l) d) ^ 2 = ∑ d, ∑ l, weight dx p.pos l * (p.vel d + apply9 p.C (diff dx p.pos l) d) ^ 2 := by
        rw [Finset.sum_comm]; exact Finset.sum_congr rfl fun l _ => by rw [Finset.mul_sum]
      rw [this, ← sum_mat_sq, Finset.mul_sum, ← Finset.sum_add_distrib]
      exact Finset.sum_congr rfl fun d _ => (affine_sq dx p.pos p.vel p.C d).symm
    have h2 : p.mass * ∑ l, weight dx p.pos l * ∑ d, ((p.vel d + apply9 p.C (diff dx p.pos l) d) - (v (coord dx p.pos l)).mv d) ^ 2 =
        p.mass * (∑ l, weight dx p.pos l * ∑ d, (p.vel d + apply9 p.C (diff dx p.pos l) d) ^ 2) + p.mass * (∑ l, weight dx p.pos l * ∑ d, (v (coord dx p.pos l)).mv d ^ 2) -
          2 * ∑ l, ∑ d, (v (coord dx p.pos l)).mv d * (p2gAdd dx dt (stress p) p l).mv d := by
      simp only [Finset.mul_sum, ← Finset.sum_add_distrib, ← Finset.sum_sub_distrib, p2gAdd]
      exact Finset.sum_congr rfl fun l _ => Finset.sum_congr rfl fun d _ => by ring
    have h3 : ∑ l, (∑ d, (v (coord dx p.pos l)).mv d ^ 2) * (p2gAdd dx dt (stress p) p l).mass = p.mass * ∑ l, weight dx p.pos l * ∑ d, (v (coord dx p.pos l)).mv d ^ 2 := by
      rw [Finset.mul_sum]; exact Finset.sum_congr rfl fun l _ => by simp only [p2gAdd]; ring
    rw [h1, h3]
    linarith [h2 ▸ h0]
  have e1 : totalEnergy dx (ps.map (g2p dx dt v)) ≤ (ps.map fun p => p.mass * ∑ l, weight dx p.pos l * ∑ d, (v (coord dx p.pos l)).mv d ^ 2).sum := by
    unfold totalEnergy
    rw [List.map_map]
    exact List.sum_le_sum fun p hp => mul_le_mul_of_nonneg_left (hb p) (hm p hp)
  have e2 := List.sum_le_sum fun p hp => ha p (hm p hp)
  have hsub : ∀ (f g : Particle → ℝ) (l : List Particle), (l.map fun p => f p - g p).sum = (l.map f).sum - (l.map g).sum := by
    intro f g l
    induction l with
    | nil => simp
    | cons a l ih => simp only [List.map_cons, List.sum_cons, ih]; ring
  rw [List.sum_map_add, List.sum_map_mul_left, hsub, ← s1, sub_self, mul_zero, add_zero] at e2
  exact e1.trans e2

/-- The stress, which the first transfer writes to the channels 4 to 6, is not read by the operations that follow: without a solver in between, the particles move as if there were none. -/
theorem step_stress (dx dt : ℝ) (extf : V3) (s t : Particle → V9) (ps : List Particle) : step dx dt extf s ps = step dx dt extf t ps := by
  have key : ∀ k, (p2g dx dt s ps zero k).mass = (p2g dx dt t ps zero k).mass ∧ (p2g dx dt s ps zero k).mv = (p2g dx dt t ps zero k).mv := by
    intro k
    constructor
    · rw [← massLin_eval, ← massLin_eval, pt_p2g, pt_p2g]
      simp only [massLin_eval, p2gAdd]
    · funext d
      have h := fun s => pt_p2g (mvLin (Pi.single d 1)) dx dt s ps zero k
      simp only [mvLin_eval, single_sum] at h
      rw [h, h]
      simp only [p2gAdd]
  have hv : ∀ k, (velocity dt extf (p2g dx dt s ps zero) k).mv = (velocity dt extf (p2g dx dt t ps zero) k).mv := by
    intro k
    obtain ⟨h1, h2⟩ := key k
    unfold velocity nodeVelocity
    rw [h1]
    split <;> simp [h2]
  unfold step
  refine List.map_congr_left fun p _ => ?_
  unfold g2p gather gatherC
  simp only [hv]

end Verif.Mpm
