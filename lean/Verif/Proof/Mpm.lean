import Verif.Spec.Mpm
import Mathlib.Algebra.BigOperators.Ring.Finset
import Mathlib.Algebra.BigOperators.Fin
import Mathlib.Algebra.Order.BigOperators.Group.Finset
import Mathlib.Tactic.Linarith
import Mathlib.Tactic.Ring
import Mathlib.Tactic.FieldSimp
import Mathlib.Tactic.Positivity
import Mathlib.Tactic.FinCases
import Mathlib.Tactic.LinearCombination

/-! Helper lemmas for the transfers. -/
namespace Verif.Mpm

/-! ### One dimension -/

/-- Weights of the three nodes at `0`, `1`, `2` for a point in between. -/
structure Moments (x : ℝ) : Prop where
  nonneg : ∀ i, 0 ≤ weights1 x i
  zeroth : ∑ i, weights1 x i = 1
  first : ∑ i : Fin 3, weights1 x i * (((i : ℕ) : ℝ) - x) = 0
  second : ∑ i : Fin 3, weights1 x i * (((i : ℕ) : ℝ) - x) ^ 2 = 1 / 4

theorem moments {x : ℝ} (h0 : 0.5 ≤ x) (h1 : x < 1.5) : Moments x := by
  have hb : base x = 0 := by
    unfold base
    rw [Int.floor_eq_zero_iff]
    constructor
    · linarith
    · norm_num at h1 ⊢; linarith
  have e : weights1 x = ![0.5 * (1.5 - x) * (1.5 - x), 0.75 - (x - 1) * (x - 1), 0.5 * (0.5 + (x - 1)) * (0.5 + (x - 1))] := by
    simp only [weights1, hb, Int.cast_zero, sub_zero]
  norm_num at h0 h1
  refine ⟨fun i => ?_, ?_, ?_, ?_⟩
  · rw [e]
    fin_cases i
    · simp only [Fin.zero_eta, Matrix.cons_val_zero]; nlinarith [sq_nonneg (1.5 - x)]
    · simp only [Fin.mk_one, Matrix.cons_val_one, Matrix.cons_val_zero]; nlinarith
    · simp only [Fin.reduceFinMk, Matrix.cons_val]; nlinarith [sq_nonneg (0.5 + (x - 1))]
  · rw [e, Fin.sum_univ_three]; simp only [Matrix.cons_val_zero, Matrix.cons_val_one, Matrix.cons_val]; ring
  · rw [e, Fin.sum_univ_three]; simp only [Matrix.cons_val_zero, Matrix.cons_val_one, Matrix.cons_val, Fin.val_zero, Fin.val_one, Fin.val_two]; push_cast; ring
  · rw [e, Fin.sum_univ_three]; simp only [Matrix.cons_val_zero, Matrix.cons_val_one, Matrix.cons_val, Fin.val_zero, Fin.val_one, Fin.val_two]; push_cast; ring

theorem local_moments (dx : ℝ) (pos : V3) (d : Fin 3) : Moments (localPos dx pos d) := by
  have h1 := Int.floor_le (pos d / dx - 0.5)
  have h2 := Int.lt_floor_add_one (pos d / dx - 0.5)
  apply moments
  · simp only [localPos, corner, base]; linarith
  · simp only [localPos, corner, base]
    have : (1.5 : ℝ) = 1 + 0.5 := by norm_num
    rw [this]; linarith

/-! ### Three dimensions -/

/-- The same with distances. -/
noncomputable def wt (dx : ℝ) (pos : V3) (d : Fin 3) (i : Fin 3) : ℝ := weights1 (localPos dx pos d) i
noncomputable def df (dx : ℝ) (pos : V3) (d : Fin 3) (i : Fin 3) : ℝ := ((i : ℕ) : ℝ) * dx - localPos dx pos d * dx

theorem weight_prod (dx : ℝ) (pos : V3) (l : Loc) : weight dx pos l = ∏ d, wt dx pos d (l d) := by
  rw [Fin.prod_univ_three]; simp only [weight, wt]; ring

theorem weight_nonneg (dx : ℝ) (pos : V3) (l : Loc) : 0 ≤ weight dx pos l := by
  rw [weight_prod]; exact Finset.prod_nonneg fun d _ => (local_moments dx pos d).nonneg _

theorem wt_sum (dx : ℝ) (pos : V3) (d : Fin 3) : ∑ i, wt dx pos d i = 1 := (local_moments dx pos d).zeroth

theorem wt_first (dx : ℝ) (pos : V3) (d : Fin 3) : ∑ i, wt dx pos d i * df dx pos d i = 0 := by
  have h := (local_moments dx pos d).first
  have : ∑ i, wt dx pos d i * df dx pos d i = dx * ∑ i : Fin 3, weights1 (localPos dx pos d) i * (((i : ℕ) : ℝ) - localPos dx pos d) := by
    rw [Finset.mul_sum]; refine Finset.sum_congr rfl fun i _ => ?_
    simp only [wt, df]; ring
  rw [this, h, mul_zero]

theorem wt_second (dx : ℝ) (pos : V3) (d : Fin 3) : ∑ i, wt dx pos d i * df dx pos d i ^ 2 = dx ^ 2 / 4 := by
  have h := (local_moments dx pos d).second
  have : ∑ i, wt dx pos d i * df dx pos d i ^ 2 = dx ^ 2 * ∑ i : Fin 3, weights1 (localPos dx pos d) i * (((i : ℕ) : ℝ) - localPos dx pos d) ^ 2 := by
    rw [Finset.mul_sum]; refine Finset.sum_congr rfl fun i _ => ?_
    simp only [wt, df]; ring
  rw [this, h]; ring

theorem diff_df (dx : ℝ) (pos : V3) (l : Loc) (d : Fin 3) : diff dx pos l d = df dx pos d (l d) := rfl

/-- Sums over the arena of products are products of sums. -/
theorem sum_loc (f : Fin 3 → Fin 3 → ℝ) : ∑ l : Loc, ∏ d, f d (l d) = ∏ d, ∑ i, f d i := by
  rw [Finset.prod_univ_sum, Fintype.piFinset_univ]

theorem sum_weight (dx : ℝ) (pos : V3) : ∑ l, weight dx pos l = 1 := by
  simp only [weight_prod]
  rw [sum_loc]
  exact Finset.prod_eq_one fun d _ => wt_sum dx pos d

theorem sum_diff (dx : ℝ) (pos : V3) (a : Fin 3) : ∑ l, weight dx pos l * diff dx pos l a = 0 := by
  have e : ∀ l : Loc, weight dx pos l * diff dx pos l a = ∏ d, wt dx pos d (l d) * (if d = a then df dx pos d (l d) else 1) := by
    intro l
    rw [Finset.prod_mul_distrib, weight_prod, Finset.prod_ite_eq' Finset.univ a]
    simp [diff_df]
  simp only [e]
  rw [sum_loc (fun d i => wt dx pos d i * (if d = a then df dx pos d i else 1))]
  refine Finset.prod_eq_zero (Finset.mem_univ a) ?_
  simp only [if_true]
  exact wt_first dx pos a

theorem sum_diff2 (dx : ℝ) (pos : V3) (a b : Fin 3) : ∑ l, weight dx pos l * (diff dx pos l a * diff dx pos l b) = if a = b then dx ^ 2 / 4 else 0 := by
  have e : ∀ l : Loc, weight dx pos l * (diff dx pos l a * diff dx pos l b) =
      ∏ d, wt dx pos d (l d) * (if d = a then df dx pos d (l d) else 1) * (if d = b then df dx pos d (l d) else 1) := by
    intro l
    rw [Finset.prod_mul_distrib, Finset.prod_mul_distrib, weight_prod, Finset.prod_ite_eq' Finset.univ a, Finset.prod_ite_eq' Finset.univ b]
    simp [diff_df, mul_assoc]
  simp only [e]
  rw [sum_loc (fun d i => wt dx pos d i * (if d = a then df dx pos d i else 1) * (if d = b then df dx pos d i else 1))]
  by_cases h : a = b
  · subst h
    rw [if_pos rfl, Finset.prod_eq_single a]
    · simp only [if_true]
      rw [← wt_second dx pos a]
      exact Finset.sum_congr rfl fun i _ => by ring
    · intro d _ hd
      simp only [if_neg hd, mul_one]
      exact wt_sum dx pos d
    · simp
  · rw [if_neg h]
    refine Finset.prod_eq_zero (Finset.mem_univ a) ?_
    simp only [if_true, if_neg h, mul_one]
    exact wt_first dx pos a

/-- `diff` is the vector from the particle to the node. -/
theorem diff_pos {dx : ℝ} (h : dx ≠ 0) (pos : V3) (l : Loc) (d : Fin 3) : nodePos dx (coord dx pos l) d = pos d + diff dx pos l d := by
  simp only [nodePos, coord, diff, localPos]
  push_cast
  have : pos d / dx * dx = pos d := div_mul_cancel₀ _ h
  linear_combination this

/-! ### Sums in the order of the code -/

theorem range_nodup : range.Nodup := by decide +kernel

theorem range_mem (l : Loc) : l ∈ range := by
  have : l = ![l 0, l 1, l 2] := by
    funext d; fin_cases d <;> rfl
  rw [this]
  simp [range]

theorem sum_range {M : Type} [AddCommMonoid M] (f : Loc → M) : (range.map f).sum = ∑ l, f l := by
  have h : range.toFinset = Finset.univ := Finset.eq_univ_iff_forall.2 fun l => List.mem_toFinset.2 (range_mem l)
  rw [← h, List.sum_toFinset f range_nodup]

theorem foldl_add {M α : Type} [AddCommMonoid M] (f : α → M) (l : List α) (a : M) : l.foldl (fun v x => v + f x) a = a + (l.map f).sum := by
  induction l generalizing a with
  | nil => simp
  | cons x l ih => rw [List.foldl_cons, ih, List.map_cons, List.sum_cons, add_assoc]

/-- A linear function of the values of a node. -/
structure Lin where
  m : ℝ
  v : V3
  r : V3

def Lin.eval (f : Lin) (n : Node) : ℝ := f.m * n.mass + (∑ d, f.v d * n.mv d) + ∑ d, f.r d * n.rhs d

theorem lin_add (f : Lin) (a b : Node) : f.eval ⟨a.mass + b.mass, a.mv + b.mv, a.rhs + b.rhs⟩ = f.eval a + f.eval b := by
  simp only [Lin.eval, Pi.add_apply, mul_add, Finset.sum_add_distrib]; ring

theorem total_add (f : I3 → Lin) {nodes : Finset I3} (g : Grid) {i : I3} (hi : i ∈ nodes) (n : Node) :
    ∑ k ∈ nodes, (f k).eval (g.add i n k) = ∑ k ∈ nodes, (f k).eval (g k) + (f i).eval n := by
  classical
  have : ∀ k ∈ nodes, (f k).eval (g.add i n k) = (f k).eval (g k) + if k = i then (f k).eval n else 0 := by
    intro k _
    unfold Grid.add
    split
    · exact lin_add _ _ _
    · simp
  rw [Finset.sum_congr rfl this, Finset.sum_add_distrib, Finset.sum_ite_eq' nodes i, if_pos hi]

theorem total_fold (f : I3 → Lin) {nodes : Finset I3} (c : Loc → I3) (n : Loc → Node) (ls : List Loc) (h : ∀ l, c l ∈ nodes) (g : Grid) :
    ∑ k ∈ nodes, (f k).eval (ls.foldl (fun g l => g.add (c l) (n l)) g k) = ∑ k ∈ nodes, (f k).eval (g k) + (ls.map fun l => (f (c l)).eval (n l)).sum := by
  induction ls generalizing g with
  | nil => simp
  | cons l ls ih => rw [List.foldl_cons, ih, total_add f g (h l), List.map_cons, List.sum_cons, add_assoc]

/-- Linear totals over the grid after the transfer. -/
theorem total_p2g (f : I3 → Lin) {nodes : Finset I3} (dx dt : ℝ) (stress : Particle → V9) {ps : List Particle} (h : Covers dx ps nodes) (g : Grid) :
    ∑ k ∈ nodes, (f k).eval (p2g dx dt stress ps g k) = ∑ k ∈ nodes, (f k).eval (g k) + (ps.map fun p => ∑ l, (f (coord dx p.pos l)).eval (p2gAdd dx dt (stress p) p l)).sum := by
  induction ps generalizing g with
  | nil => simp [p2g]
  | cons p ps ih =>
    have hp : ∀ q ∈ ps, ∀ l, coord dx q.pos l ∈ nodes := fun q hq => h q (List.mem_cons_of_mem _ hq)
    have e : p2g dx dt stress (p :: ps) g = p2g dx dt stress ps (p2g1 dx dt (stress p) p g) := rfl
    rw [e, ih hp, p2g1, total_fold f _ _ _ (h p List.mem_cons_self), sum_range, List.map_cons, List.sum_cons, add_assoc]

theorem total_zero (f : I3 → Lin) (nodes : Finset I3) : ∑ k ∈ nodes, (f k).eval (zero k) = 0 :=
  Finset.sum_eq_zero fun k _ => by simp [Lin.eval, zero]

theorem gather_eq (dx : ℝ) (g : Grid) (pos : V3) (d : Fin 3) : gather dx g pos d = ∑ l, (g (coord dx pos l)).mv d * weight dx pos l := by
  unfold gather
  rw [foldl_add, sum_range, zero_add, Finset.sum_apply]

theorem gatherC_eq (dx : ℝ) (g : Grid) (pos : V3) (k : Fin 9) :
    gatherC dx g pos k = ∑ l, weight dx pos l * (g (coord dx pos l)).mv ⟨k % 3, by omega⟩ * diff dx pos l ⟨k / 3, by omega⟩ * dInv dx := by
  unfold gatherC
  rw [foldl_add, sum_range, zero_add, Finset.sum_apply]

/-- `C` as a matrix. -/
theorem mat_gatherC (dx : ℝ) (g : Grid) (pos : V3) (i j : Fin 3) :
    mat (gatherC dx g pos) i j = ∑ l, weight dx pos l * (g (coord dx pos l)).mv i * diff dx pos l j * dInv dx := by
  unfold mat
  rw [gatherC_eq]
  have h1 : (⟨(3 * (j : ℕ) + i) % 3, by omega⟩ : Fin 3) = i := Fin.ext (by simp only; omega)
  have h2 : (⟨(3 * (j : ℕ) + i) / 3, by omega⟩ : Fin 3) = j := Fin.ext (by simp only; omega)
  refine Finset.sum_congr rfl fun l _ => ?_
  rw [h1, h2]

theorem apply9_eq (c : V9) (x : V3) (d : Fin 3) : apply9 c x d = ∑ j, mat c d j * x j := by
  rw [Fin.sum_univ_three]
  unfold apply9 mat
  have h0 : (⟨3 * ((0 : Fin 3) : ℕ) + d, by simp; omega⟩ : Fin 9) = d.castLE (by decide) := Fin.ext (by simp)
  have h1 : (⟨3 * ((1 : Fin 3) : ℕ) + d, by simp; omega⟩ : Fin 9) = ⟨3 + d, by omega⟩ := Fin.ext (by simp)
  have h2 : (⟨3 * ((2 : Fin 3) : ℕ) + d, by simp; omega⟩ : Fin 9) = ⟨6 + d, by omega⟩ := Fin.ext (by simp)
  rw [h0, h1, h2]

theorem dInv_eq {dx : ℝ} (h : dx ≠ 0) : dInv dx * (dx ^ 2 / 4) = 1 := by
  unfold dInv; field_simp

/-! ### Moments of an affine field -/

theorem mom_vel (dx : ℝ) (pos vel : V3) (c : V9) (d : Fin 3) : ∑ l, weight dx pos l * (vel d + apply9 c (diff dx pos l) d) = vel d := by
  have : ∀ l, weight dx pos l * (vel d + apply9 c (diff dx pos l) d) = weight dx pos l * vel d + ∑ j, mat c d j * (weight dx pos l * diff dx pos l j) := by
    intro l; rw [apply9_eq, mul_add, Finset.mul_sum]
    congr 1; exact Finset.sum_congr rfl fun j _ => by ring
  rw [Finset.sum_congr rfl fun l _ => this l, Finset.sum_add_distrib, ← Finset.sum_mul, sum_weight, Finset.sum_comm]
  simp only [← Finset.mul_sum, sum_diff, mul_zero, Finset.sum_const_zero]; ring

theorem mom_diff (dx : ℝ) (pos vel : V3) (c : V9) (d e : Fin 3) :
    ∑ l, weight dx pos l * diff dx pos l e * (vel d + apply9 c (diff dx pos l) d) = dx ^ 2 / 4 * mat c d e := by
  have : ∀ l, weight dx pos l * diff dx pos l e * (vel d + apply9 c (diff dx pos l) d) =
      vel d * (weight dx pos l * diff dx pos l e) + ∑ j, mat c d j * (weight dx pos l * (diff dx pos l e * diff dx pos l j)) := by
    intro l; rw [apply9_eq, mul_add, Finset.mul_sum]
    congr 1
    · ring
    · exact Finset.sum_congr rfl fun j _ => by ring
  rw [Finset.sum_congr rfl fun l _ => this l, Finset.sum_add_distrib, ← Finset.mul_sum, sum_diff, Finset.sum_comm]
  simp only [← Finset.mul_sum, sum_diff2, mul_ite, mul_zero]
  simp [mul_comm]

end Verif.Mpm
