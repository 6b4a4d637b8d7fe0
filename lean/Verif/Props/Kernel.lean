import Verif.Proof.Kernel
import Mathlib.Tactic.LinearCombination
import Mathlib.Data.Rat.Floor
import Mathlib.Analysis.Real.Sqrt

/-!
Interpolation weights (C70): the weights, first and second derivatives are those of the cardinal B-splines, at all nodes; sums and moments;
the conditions of discrete delta functions.
-/
namespace Verif.Kernel

set_option linter.unusedSectionVars false

variable {K : Type} [Field K] [LinearOrder K] [IsStrictOrderedRing K] [FloorRing K] {w : Nat} {x : K} {p : Pads K}

theorem linear_spline (h : linear w x = some p) : ∃ b, baseNode w 0 x = some b
    ∧ ∀ n : Int, entry b p.w n = bspline 1 (x - n) ∧ entry b p.dw n = slope 1 (x - n) ∧ entry b p.ddw n = curvature 1 (x - n) := by
  obtain ⟨b, hb, rfl⟩ := Option.map_eq_some_iff.1 h
  obtain ⟨h1, h2⟩ := base_bounds hb
  push_cast at h1 h2
  have low : ∀ n : Int, n < b → bspline 1 (x - n) = 0 ∧ slope 1 (x - n) = 0 ∧ curvature 1 (x - n) = 0 := fun n hn => by
    have : (n : K) + 1 ≤ b := by exact_mod_cast hn
    exact bspline_high 1 (by push_cast; linarith)
  have high : ∀ n : Int, b + (2 : Nat) ≤ n → bspline 1 (x - n) = 0 ∧ slope 1 (x - n) = 0 ∧ curvature 1 (x - n) = 0 := fun n hn => by
    have : (b : K) + 2 ≤ n := by exact_mod_cast hn
    exact bspline_low 1 (by push_cast; linarith)
  refine ⟨b, hb, fun n => ⟨?_, ?_, ?_⟩⟩
  · refine entry_cases b _ (fun n => bspline 1 (x - n)) (fun n hn => (low n hn).1) (by exact fun n hn => (high n hn).1) (fun k hk => ?_) n
    match k, hk with
    | 0, _ => simp only [bspline_one]; push_cast; rw [unit_high (by linarith), unit_in (by linarith) (by linarith)]; simp
    | 1, _ => simp only [bspline_one]; push_cast; rw [unit_in (by linarith) (by linarith), unit_low (by linarith)]; simp; ring
  · refine entry_cases b _ (fun n => slope 1 (x - n)) (fun n hn => (low n hn).2.1) (by exact fun n hn => (high n hn).2.1) (fun k hk => ?_) n
    match k, hk with
    | 0, _ => simp only [slope_one]; push_cast; rw [unit_high (by linarith), unit_in (by linarith) (by linarith)]; simp
    | 1, _ => simp only [slope_one]; push_cast; rw [unit_in (by linarith) (by linarith), unit_low (by linarith)]; simp
  · refine entry_cases b _ (fun n => curvature 1 (x - n)) (fun n hn => (low n hn).2.2) (by exact fun n hn => (high n hn).2.2) (fun k hk => ?_) n
    match k, hk with
    | 0, _ | 1, _ => simp only [curvature_one]; simp

theorem quadratic_spline (h : quadratic w x = some p) : ∃ b, baseNode w 1 x = some b
    ∧ ∀ n : Int, entry b p.w n = bspline 2 (x - n) ∧ entry b p.dw n = slope 2 (x - n) ∧ entry b p.ddw n = curvature 2 (x - n) := by
  obtain ⟨b, hb, rfl⟩ := Option.map_eq_some_iff.1 h
  obtain ⟨h1, h2⟩ := base_bounds hb
  push_cast at h1 h2
  have low : ∀ n : Int, n < b → bspline 2 (x - n) = 0 ∧ slope 2 (x - n) = 0 ∧ curvature 2 (x - n) = 0 := fun n hn => by
    have : (n : K) + 1 ≤ b := by exact_mod_cast hn
    exact bspline_high 2 (by push_cast; linarith)
  have high : ∀ n : Int, b + (3 : Nat) ≤ n → bspline 2 (x - n) = 0 ∧ slope 2 (x - n) = 0 ∧ curvature 2 (x - n) = 0 := fun n hn => by
    have : (b : K) + 3 ≤ n := by exact_mod_cast hn
    exact bspline_low 2 (by push_cast; linarith)
  have e0 : bspline 0 (x - (b : K) + 1) = 0 ∧ bspline 0 (x - (b : K)) = 0 ∧ bspline 0 (x - (b : K) - 1) = 1 :=
    ⟨unit_high (by linarith), unit_high (by linarith), unit_in (by linarith) (by linarith)⟩
  have e1 : bspline 0 (x - ((b : K) + 1) + 1) = 0 ∧ bspline 0 (x - ((b : K) + 1)) = 1 ∧ bspline 0 (x - ((b : K) + 1) - 1) = 0 :=
    ⟨unit_high (by linarith), unit_in (by linarith) (by linarith), unit_low (by linarith)⟩
  have e2 : bspline 0 (x - ((b : K) + 2) + 1) = 1 ∧ bspline 0 (x - ((b : K) + 2)) = 0 ∧ bspline 0 (x - ((b : K) + 2) - 1) = 0 :=
    ⟨unit_in (by linarith) (by linarith), unit_low (by linarith), unit_low (by linarith)⟩
  refine ⟨b, hb, fun n => ⟨?_, ?_, ?_⟩⟩
  · refine entry_cases b _ (fun n => bspline 2 (x - n)) (fun n hn => (low n hn).1) (by exact fun n hn => (high n hn).1) (fun k hk => ?_) n
    match k, hk with
    | 0, _ => simp only [bspline_two]; push_cast; rw [add_zero, e0.1, e0.2.1, e0.2.2]; simp
    | 1, _ => simp only [bspline_two]; push_cast; rw [e1.1, e1.2.1, e1.2.2]; simp; ring
    | 2, _ => simp only [bspline_two]; push_cast; rw [e2.1, e2.2.1, e2.2.2]; simp; ring
  · refine entry_cases b _ (fun n => slope 2 (x - n)) (fun n hn => (low n hn).2.1) (by exact fun n hn => (high n hn).2.1) (fun k hk => ?_) n
    match k, hk with
    | 0, _ => simp only [slope_two]; push_cast; rw [add_zero, e0.1, e0.2.1, e0.2.2]; simp
    | 1, _ => simp only [slope_two]; push_cast; rw [e1.1, e1.2.1, e1.2.2]; simp; ring
    | 2, _ => simp only [slope_two]; push_cast; rw [e2.1, e2.2.1, e2.2.2]; simp; ring
  · refine entry_cases b _ (fun n => curvature 2 (x - n)) (fun n hn => (low n hn).2.2) (by exact fun n hn => (high n hn).2.2) (fun k hk => ?_) n
    match k, hk with
    | 0, _ => simp only [curvature_two]; push_cast; rw [add_zero, e0.1, e0.2.1, e0.2.2]; simp
    | 1, _ => simp only [curvature_two]; push_cast; rw [e1.1, e1.2.1, e1.2.2]; simp
    | 2, _ => simp only [curvature_two]; push_cast; rw [e2.1, e2.2.1, e2.2.2]; simp

theorem cubic_spline (h : cubic w x = some p) : ∃ b, baseNode w 2 x = some b
    ∧ ∀ n : Int, entry b p.w n = bspline 3 (x - n) ∧ entry b p.dw n = slope 3 (x - n) ∧ entry b p.ddw n = curvature 3 (x - n) := by
  obtain ⟨b, hb, rfl⟩ := Option.map_eq_some_iff.1 h
  obtain ⟨h1, h2⟩ := base_bounds hb
  push_cast at h1 h2
  have low : ∀ n : Int, n < b → bspline 3 (x - n) = 0 ∧ slope 3 (x - n) = 0 ∧ curvature 3 (x - n) = 0 := fun n hn => by
    have : (n : K) + 1 ≤ b := by exact_mod_cast hn
    exact bspline_high 3 (by push_cast; linarith)
  have high : ∀ n : Int, b + (4 : Nat) ≤ n → bspline 3 (x - n) = 0 ∧ slope 3 (x - n) = 0 ∧ curvature 3 (x - n) = 0 := fun n hn => by
    have : (b : K) + 4 ≤ n := by exact_mod_cast hn
    exact bspline_low 3 (by push_cast; linarith)
  have e0 : bspline 0 (x - (b : K) + 3 / 2) = 0 ∧ bspline 0 (x - (b : K) + 1 / 2) = 0 ∧ bspline 0 (x - (b : K) - 1 / 2) = 0
      ∧ bspline 0 (x - (b : K) - 3 / 2) = 1 :=
    ⟨unit_high (by linarith), unit_high (by linarith), unit_high (by linarith), unit_in (by linarith) (by linarith)⟩
  have e1 : bspline 0 (x - ((b : K) + 1) + 3 / 2) = 0 ∧ bspline 0 (x - ((b : K) + 1) + 1 / 2) = 0 ∧ bspline 0 (x - ((b : K) + 1) - 1 / 2) = 1
      ∧ bspline 0 (x - ((b : K) + 1) - 3 / 2) = 0 :=
    ⟨unit_high (by linarith), unit_high (by linarith), unit_in (by linarith) (by linarith), unit_low (by linarith)⟩
  have e2 : bspline 0 (x - ((b : K) + 2) + 3 / 2) = 0 ∧ bspline 0 (x - ((b : K) + 2) + 1 / 2) = 1 ∧ bspline 0 (x - ((b : K) + 2) - 1 / 2) = 0
      ∧ bspline 0 (x - ((b : K) + 2) - 3 / 2) = 0 :=
    ⟨unit_high (by linarith), unit_in (by linarith) (by linarith), unit_low (by linarith), unit_low (by linarith)⟩
  have e3 : bspline 0 (x - ((b : K) + 3) + 3 / 2) = 1 ∧ bspline 0 (x - ((b : K) + 3) + 1 / 2) = 0 ∧ bspline 0 (x - ((b : K) + 3) - 1 / 2) = 0
      ∧ bspline 0 (x - ((b : K) + 3) - 3 / 2) = 0 :=
    ⟨unit_in (by linarith) (by linarith), unit_low (by linarith), unit_low (by linarith), unit_low (by linarith)⟩
  refine ⟨b, hb, fun n => ⟨?_, ?_, ?_⟩⟩
  · refine entry_cases b _ (fun n => bspline 3 (x - n)) (fun n hn => (low n hn).1) (by exact fun n hn => (high n hn).1) (fun k hk => ?_) n
    match k, hk with
    | 0, _ => simp only [bspline_three]; push_cast; rw [add_zero, e0.1, e0.2.1, e0.2.2.1, e0.2.2.2]; simp
    | 1, _ => simp only [bspline_three]; push_cast; rw [e1.1, e1.2.1, e1.2.2.1, e1.2.2.2]; simp; ring
    | 2, _ => simp only [bspline_three]; push_cast; rw [e2.1, e2.2.1, e2.2.2.1, e2.2.2.2]; simp; ring
    | 3, _ => simp only [bspline_three]; push_cast; rw [e3.1, e3.2.1, e3.2.2.1, e3.2.2.2]; simp; ring
  · refine entry_cases b _ (fun n => slope 3 (x - n)) (fun n hn => (low n hn).2.1) (by exact fun n hn => (high n hn).2.1) (fun k hk => ?_) n
    match k, hk with
    | 0, _ => simp only [slope_three]; push_cast; rw [add_zero, e0.1, e0.2.1, e0.2.2.1, e0.2.2.2]; simp; ring
    | 1, _ => simp only [slope_three]; push_cast; rw [e1.1, e1.2.1, e1.2.2.1, e1.2.2.2]; simp; ring
    | 2, _ => simp only [slope_three]; push_cast; rw [e2.1, e2.2.1, e2.2.2.1, e2.2.2.2]; simp; ring
    | 3, _ => simp only [slope_three]; push_cast; rw [e3.1, e3.2.1, e3.2.2.1, e3.2.2.2]; simp; ring
  · refine entry_cases b _ (fun n => curvature 3 (x - n)) (fun n hn => (low n hn).2.2) (by exact fun n hn => (high n hn).2.2) (fun k hk => ?_) n
    match k, hk with
    | 0, _ => simp only [curvature_three]; push_cast; rw [add_zero, e0.1, e0.2.1, e0.2.2.1, e0.2.2.2]; simp
    | 1, _ => simp only [curvature_three]; push_cast; rw [e1.1, e1.2.1, e1.2.2.1, e1.2.2.2]; simp; ring
    | 2, _ => simp only [curvature_three]; push_cast; rw [e2.1, e2.2.1, e2.2.2.1, e2.2.2.2]; simp; ring
    | 3, _ => simp only [curvature_three]; push_cast; rw [e3.1, e3.2.1, e3.2.2.1, e3.2.2.2]; simp; ring

/-- What interpolation needs: non-negative weights with the sum one and the mean `x`; derivatives that differentiate constants and
linear functions exactly. -/
structure Interpolates (x : K) (b : Int) (p : Pads K) : Prop where
  nonneg : ∀ a ∈ p.w, 0 ≤ a
  sum : moment 0 b p.w = 1
  mean : moment 1 b p.w = x
  slopeConst : moment 0 b p.dw = 0
  slopeLinear : moment 1 b p.dw = 1
  curveConst : moment 0 b p.ddw = 0
  curveLinear : moment 1 b p.ddw = 0

theorem linear_interpolates (h : linear w x = some p) : ∃ b, baseNode w 0 x = some b ∧ Interpolates x b p := by
  obtain ⟨b, hb, rfl⟩ := Option.map_eq_some_iff.1 h
  obtain ⟨h1, h2⟩ := base_bounds hb
  push_cast at h1 h2
  refine ⟨b, hb, ?_, ?_, ?_, ?_, ?_, ?_, ?_⟩
  · intro a ha
    simp only [List.mem_cons, List.not_mem_nil, or_false] at ha
    rcases ha with rfl | rfl <;> linarith
  all_goals simp only [moment]; push_cast; ring

theorem quadratic_interpolates (h : quadratic w x = some p) : ∃ b, baseNode w 1 x = some b ∧ Interpolates x b p := by
  obtain ⟨b, hb, rfl⟩ := Option.map_eq_some_iff.1 h
  obtain ⟨h1, h2⟩ := base_bounds hb
  push_cast at h1 h2
  refine ⟨b, hb, ?_, ?_, ?_, ?_, ?_, ?_, ?_⟩
  · intro a ha
    simp only [List.mem_cons, List.not_mem_nil, or_false] at ha
    rcases ha with rfl | rfl | rfl
    · nlinarith [sq_nonneg (3 / 2 - (x - b))]
    · nlinarith
    · nlinarith [sq_nonneg (1 / 2 + (x - b - 1))]
  all_goals simp only [moment]; push_cast; ring

theorem cubic_interpolates (h : cubic w x = some p) : ∃ b, baseNode w 2 x = some b ∧ Interpolates x b p := by
  obtain ⟨b, hb, rfl⟩ := Option.map_eq_some_iff.1 h
  obtain ⟨h1, h2⟩ := base_bounds hb
  push_cast at h1 h2
  have hz : 0 ≤ 2 - (x - b) := by linarith
  have hd : 0 ≤ x - b - 1 := by linarith
  refine ⟨b, hb, ?_, ?_, ?_, ?_, ?_, ?_, ?_⟩
  · intro a ha
    simp only [List.mem_cons, List.not_mem_nil, or_false] at ha
    rcases ha with rfl | rfl | rfl | rfl
    · exact div_nonneg (mul_nonneg (mul_nonneg hz hz) hz) (by norm_num)
    · have := mul_nonneg hz (mul_nonneg hd hd)
      nlinarith [mul_nonneg hz hd, mul_nonneg hz hz]
    · have := mul_nonneg hd (mul_nonneg hz hz)
      nlinarith [mul_nonneg hz hd, mul_nonneg hd hd]
    · have e : 2 - (1 + (1 - (x - (b : K) - 1))) = x - b - 1 := by ring
      rw [e]
      exact div_nonneg (mul_nonneg (mul_nonneg hd hd) hd) (by norm_num)
  all_goals simp only [moment]; push_cast; ring

/-- The second derivative of `y ^ 2` is two; the linear kernel gives zero. -/
theorem quadratic_curve (h : quadratic w x = some p) {b : Int} (hb : baseNode w 1 x = some b) : moment 2 b p.ddw = 2 := by
  rw [quadratic, hb] at h
  cases h
  simp only [moment]; push_cast; ring

theorem cubic_curve (h : cubic w x = some p) {b : Int} (hb : baseNode w 2 x = some b) : moment 2 b p.ddw = 2 := by
  rw [cubic, hb] at h
  cases h
  simp only [moment]; push_cast; ring

/-- The derivatives are those of the weights: the Taylor expansion inside a cell is exact. -/
theorem linear_taylor {y : K} {q : Pads K} (h : linear w x = some p) (h' : linear w y = some q) (hb : baseNode w 0 x = baseNode w 0 y) (k : Nat) :
    q.w.getD k 0 = p.w.getD k 0 + (y - x) * p.dw.getD k 0 + (y - x) ^ 2 / 2 * p.ddw.getD k 0 := by
  obtain ⟨b, hb', rfl⟩ := Option.map_eq_some_iff.1 h
  obtain ⟨b', hb'', rfl⟩ := Option.map_eq_some_iff.1 h'
  rw [hb', hb''] at hb; cases hb
  match k with
  | 0 | 1 => simp; try ring
  | k + 2 => simp

theorem quadratic_taylor {y : K} {q : Pads K} (h : quadratic w x = some p) (h' : quadratic w y = some q)
    (hb : baseNode w 1 x = baseNode w 1 y) (k : Nat) :
    q.w.getD k 0 = p.w.getD k 0 + (y - x) * p.dw.getD k 0 + (y - x) ^ 2 / 2 * p.ddw.getD k 0 := by
  obtain ⟨b, hb', rfl⟩ := Option.map_eq_some_iff.1 h
  obtain ⟨b', hb'', rfl⟩ := Option.map_eq_some_iff.1 h'
  rw [hb', hb''] at hb; cases hb
  match k with
  | 0 | 1 | 2 => simp; ring
  | k + 3 => simp

theorem cubic_taylor {y : K} {q : Pads K} (h : cubic w x = some p) (h' : cubic w y = some q)
    (hb : baseNode w 2 x = baseNode w 2 y) (k : Nat) :
    q.w.getD k 0 = p.w.getD k 0 + (y - x) * p.dw.getD k 0 + (y - x) ^ 2 / 2 * p.ddw.getD k 0
      + (y - x) ^ 3 / 6 * [(-1 : K), 3, -3, 1].getD k 0 := by
  obtain ⟨b, hb', rfl⟩ := Option.map_eq_some_iff.1 h
  obtain ⟨b', hb'', rfl⟩ := Option.map_eq_some_iff.1 h'
  rw [hb', hb''] at hb; cases hb
  match k with
  | 0 | 1 | 2 | 3 => simp; ring
  | k + 4 => simp

theorem isSome_map_ite {α β : Type} {P : Prop} [Decidable P] {a : α} {f : α → β} : ((if P then some a else none).map f).isSome ↔ P := by
  by_cases h : P
  · rw [if_pos h]; exact ⟨fun _ => h, fun _ => rfl⟩
  · rw [if_neg h]; exact ⟨fun h' => Bool.noConfusion h', fun h' => absurd h' h⟩

/-- The weights are defined exactly if the base node is an integer of the type. -/
theorem weights_defined (w : Nat) (x : K) : ((linear w x).isSome ↔ -2 ^ (w - 1) ≤ ⌊x⌋ ∧ ⌊x⌋ < 2 ^ (w - 1))
    ∧ ((quadratic w x).isSome ↔ -2 ^ (w - 1) ≤ ⌊x - 1 / 2⌋ ∧ ⌊x - 1 / 2⌋ < 2 ^ (w - 1))
    ∧ ((cubic w x).isSome ↔ -2 ^ (w - 1) ≤ ⌊x⌋ - 1 ∧ ⌊x⌋ - 1 < 2 ^ (w - 1)) := by
  refine ⟨?_, ?_, ?_⟩
  · unfold linear baseNode lowerTrunc
    rw [show x - 1 / 2 * ((0 : Nat) : K) = x by push_cast; ring]
    exact isSome_map_ite
  · unfold quadratic baseNode lowerTrunc
    rw [show x - 1 / 2 * ((1 : Nat) : K) = x - 1 / 2 by push_cast; ring]
    exact isSome_map_ite
  · unfold cubic baseNode lowerTrunc
    rw [show x - 1 / 2 * ((2 : Nat) : K) = x - 1 by push_cast; ring, Int.floor_sub_one]
    exact isSome_map_ite

/-- The older function gives the quadratic weights. -/
theorem bsplineWeight_spec (w : Nat) (q dxInv : K) (h : (bsplineWeight w q dxInv).isSome) (h' : (quadratic w (q * dxInv)).isSome) :
    bsplineWeight w q dxInv = (quadratic w (q * dxInv)).map (·.w) := by
  have e : ⌊q * dxInv + 1 / 2⌋ = ⌊q * dxInv - 1 / 2⌋ + 1 := by
    rw [← Int.floor_add_one]; congr 1; ring
  unfold bsplineWeight lowerTrunc at h ⊢
  unfold quadratic baseNode lowerTrunc at h' ⊢
  rw [show q * dxInv - 1 / 2 * ((1 : Nat) : K) = q * dxInv - 1 / 2 by push_cast; ring] at h' ⊢
  rw [if_pos (isSome_map_ite.1 h), if_pos (isSome_map_ite.1 h'), e]
  simp only [Option.map_some, Int.cast_add, Int.cast_one, add_sub_cancel_right]

/-! ## Discrete delta functions -/

theorem delta2_linear (w : Nat) (x : K) : delta2 w x = (linear w x).map (·.w) := by
  unfold delta2 linear
  rw [Option.map_map]
  cases hb : baseNode w 0 x with
  | none => rfl
  | some b =>
    obtain ⟨h1, h2⟩ := base_bounds hb
    push_cast at h1 h2
    have r0 : distance x b 0 = x - b := by
      unfold distance; push_cast; rw [abs_of_nonneg (by linarith)]; ring
    have r1 : distance x b 1 = 1 - (x - b) := by
      unfold distance; push_cast; rw [abs_of_nonpos (by linarith)]; ring
    simp only [Option.map_some, Function.comp, List.range_succ, List.range_zero, List.nil_append, List.map_cons, List.map_nil,
      List.cons_append, r0, r1]
    rw [if_pos (by linarith)]
    by_cases h : x - b = 0
    · rw [h]; simp
    · have : 0 < x - b := lt_of_le_of_ne (by linarith) (Ne.symm h)
      rw [if_pos (by linarith)]; simp

/-- The weights of three nodes with `s` the distance to the middle one. -/
theorem delta3_values {sqrt : K → K} (hs : IsSqrt sqrt) {row : List K} (h : delta3 sqrt w x = some row) :
    ∃ b, baseNode w 1 x = some b ∧ ∃ s, s = x - b - 1 ∧ -(1 / 2) ≤ s ∧ s < 1 / 2
      ∧ row = [1 / 6 * (2 - 3 * s - sqrt (1 - 3 * s * s)), 1 / 3 * (1 + sqrt (1 - 3 * s * s)), 1 / 6 * (2 + 3 * s - sqrt (1 - 3 * s * s))] := by
  obtain ⟨b, hb, rfl⟩ := Option.map_eq_some_iff.1 h
  obtain ⟨h1, h2⟩ := base_bounds hb
  push_cast at h1 h2
  refine ⟨b, hb, _, rfl, by linarith, by linarith, ?_⟩
  generalize hsd : x - b - 1 = s
  have hs1 : -(1 / 2) ≤ s := by linarith
  have hs2 : s < 1 / 2 := by linarith
  have r0 : distance x b 0 = 1 + s := by
    unfold distance; push_cast; rw [abs_of_nonneg (by linarith)]; linarith
  have r1 : distance x b 1 = |s| := by
    unfold distance; push_cast; congr 1; linarith
  have r2 : distance x b 2 = 1 - s := by
    unfold distance; push_cast; rw [abs_of_nonpos (by linarith)]; linarith
  have ha : |s| ≤ 1 / 2 := abs_le.2 ⟨by linarith, by linarith⟩
  have half : sqrt (1 / 4) = 1 / 2 := by
    have h3 := hs.square (1 / 4) (by norm_num)
    have h4 := hs.nonneg (1 / 4) (by norm_num)
    have h5 : (sqrt (1 / 4) - 1 / 2) * (sqrt (1 / 4) + 1 / 2) = 0 := by linarith [mul_comm (sqrt (1 / 4)) (1 / 2)]
    rcases mul_eq_zero.1 h5 with h6 | h6 <;> linarith
  simp only [List.range_succ, List.range_zero, List.nil_append, List.map_cons, List.map_nil, List.cons_append, r0, r1, r2]
  rw [if_pos ha, show -3 * |s| * |s| + 1 = 1 - 3 * s * s by rw [mul_assoc, abs_mul_abs_self]; ring]
  by_cases he : s = -(1 / 2)
  · subst he
    rw [if_pos (by norm_num), if_neg (by norm_num), if_neg (by norm_num)]
    norm_num [half]
  · have hlt : -(1 / 2) < s := lt_of_le_of_ne hs1 (Ne.symm he)
    rw [if_neg (by linarith), if_pos ⟨by linarith, by linarith⟩, if_neg (by linarith), if_pos ⟨by linarith, by linarith⟩]
    rw [show -3 * (1 - (1 + s)) * (1 - (1 + s)) + 1 = 1 - 3 * s * s by ring, show -3 * (1 - (1 - s)) * (1 - (1 - s)) + 1 = 1 - 3 * s * s by ring]
    congr 1
    · ring
    · congr 2; ring

/-- Sum one, mean `x`, sum of squares one half. -/
theorem delta3_conditions {sqrt : K → K} (hs : IsSqrt sqrt) {row : List K} (h : delta3 sqrt w x = some row) :
    ∃ b, baseNode w 1 x = some b ∧ moment 0 b row = 1 ∧ moment 1 b row = x ∧ (row.map fun a => a * a).sum = 1 / 2 ∧ ∀ a ∈ row, 0 ≤ a := by
  obtain ⟨b, hb, s, e, h1, h2, rfl⟩ := delta3_values hs h
  have h0 : 0 ≤ 1 - 3 * s * s := by nlinarith
  have hq := hs.square _ h0
  have hn := hs.nonneg _ h0
  refine ⟨b, hb, ?_, ?_, ?_, ?_⟩
  · simp only [moment]; push_cast; ring
  · simp only [moment]; push_cast; linear_combination e
  · simp only [List.map_cons, List.map_nil, List.sum_cons, List.sum_nil]
    generalize sqrt (1 - 3 * s * s) = q at hq
    linear_combination 1 / 6 * hq
  · have hu : sqrt (1 - 3 * s * s) ≤ 2 - 3 * s ∧ sqrt (1 - 3 * s * s) ≤ 2 + 3 * s := by
      constructor <;>
      · refine le_of_not_gt fun hlt => ?_
        nlinarith
    intro a ha
    simp only [List.mem_cons, List.not_mem_nil, or_false] at ha
    rcases ha with rfl | rfl | rfl
    · linarith
    · linarith
    · linarith

/-- The weights of four nodes with `t` the distance to the second one. -/
theorem delta4_values {sqrt : K → K} (hs : IsSqrt sqrt) {row : List K} (h : delta4 sqrt w x = some row) :
    ∃ b, baseNode w 2 x = some b ∧ ∃ t, t = x - b - 1 ∧ 0 ≤ t ∧ t < 1
      ∧ row = [1 / 8 * (3 - 2 * t - sqrt (1 + 4 * t - 4 * t * t)), 1 / 8 * (3 - 2 * t + sqrt (1 + 4 * t - 4 * t * t)),
        1 / 8 * (1 + 2 * t + sqrt (1 + 4 * t - 4 * t * t)), 1 / 8 * (1 + 2 * t - sqrt (1 + 4 * t - 4 * t * t))] := by
  obtain ⟨b, hb, rfl⟩ := Option.map_eq_some_iff.1 h
  obtain ⟨h1, h2⟩ := base_bounds hb
  push_cast at h1 h2
  refine ⟨b, hb, _, rfl, by linarith, by linarith, ?_⟩
  generalize htd : x - b - 1 = t
  have ht1 : 0 ≤ t := by linarith
  have ht2 : t < 1 := by linarith
  have r0 : distance x b 0 = 1 + t := by
    unfold distance; push_cast; rw [abs_of_nonneg (by linarith)]; linarith
  have r1 : distance x b 1 = t := by
    unfold distance; push_cast; rw [abs_of_nonneg (by linarith)]; linarith
  have r2 : distance x b 2 = 1 - t := by
    unfold distance; push_cast; rw [abs_of_nonpos (by linarith)]; linarith
  have r3 : distance x b 3 = 2 - t := by
    unfold distance; push_cast; rw [abs_of_nonpos (by linarith)]; linarith
  have one : sqrt 1 = 1 := by
    have h3 := hs.square 1 (by norm_num)
    have h4 := hs.nonneg 1 (by norm_num)
    have h5 : (sqrt 1 - 1) * (sqrt 1 + 1) = 0 := by linarith [mul_comm (sqrt 1) 1]
    rcases mul_eq_zero.1 h5 with h6 | h6 <;> linarith
  simp only [List.range_succ, List.range_zero, List.nil_append, List.map_cons, List.map_nil, List.cons_append, r0, r1, r2, r3]
  rw [if_pos (show t ≤ 1 by linarith), if_pos (show 1 - t ≤ 1 by linarith),
    show 1 + 4 * (1 - t) - 4 * (1 - t) * (1 - t) = 1 + 4 * t - 4 * t * t by ring]
  by_cases he : t = 0
  · subst he
    rw [if_pos (by norm_num), if_neg (by norm_num), if_neg (by norm_num)]
    norm_num [one]
  · have hlt : 0 < t := lt_of_le_of_ne ht1 (Ne.symm he)
    rw [if_neg (by linarith), if_pos ⟨by linarith, by linarith⟩, if_neg (by linarith), if_pos ⟨by linarith, by linarith⟩]
    rw [show -7 + 12 * (1 + t) - 4 * (1 + t) * (1 + t) = 1 + 4 * t - 4 * t * t by ring,
      show -7 + 12 * (2 - t) - 4 * (2 - t) * (2 - t) = 1 + 4 * t - 4 * t * t by ring]
    congr 1
    · ring
    · congr 2
      · ring
      · congr 1; ring

/-- Sum one, also mean `x`; the even and the odd nodes have the same part; sum of squares three eighths. -/
theorem delta4_conditions {sqrt : K → K} (hs : IsSqrt sqrt) {row : List K} (h : delta4 sqrt w x = some row) :
    ∃ b, baseNode w 2 x = some b ∧ moment 0 b row = 1 ∧ moment 1 b row = x ∧ row.getD 0 0 + row.getD 2 0 = 1 / 2 ∧ row.getD 1 0 + row.getD 3 0 = 1 / 2
      ∧ (row.map fun a => a * a).sum = 3 / 8 ∧ ∀ a ∈ row, 0 ≤ a := by
  obtain ⟨b, hb, t, e, h1, h2, rfl⟩ := delta4_values hs h
  have h0 : 0 ≤ 1 + 4 * t - 4 * t * t := by nlinarith
  have hq := hs.square _ h0
  have hn := hs.nonneg _ h0
  refine ⟨b, hb, ?_, ?_, ?_, ?_, ?_, ?_⟩
  · simp only [moment]; push_cast; ring
  · simp only [moment]; push_cast; linear_combination e
  · simp; ring
  · simp; ring
  · simp only [List.map_cons, List.map_nil, List.sum_cons, List.sum_nil]
    generalize sqrt (1 + 4 * t - 4 * t * t) = q at hq
    linear_combination 1 / 16 * hq
  · have hu : sqrt (1 + 4 * t - 4 * t * t) ≤ 3 - 2 * t ∧ sqrt (1 + 4 * t - 4 * t * t) ≤ 1 + 2 * t := by
      constructor <;>
      · refine le_of_not_gt fun hlt => ?_
        nlinarith
    intro a ha
    simp only [List.mem_cons, List.not_mem_nil, or_false] at ha
    rcases ha with rfl | rfl | rfl | rfl
    · linarith
    · linarith
    · linarith
    · linarith

/-! ## Examples -/

/-- Of rational numbers, at one third beyond node 7. -/
example : (cubic 32 (22 / 3 : ℚ)).map (·.w) = some [4 / 81, 31 / 54, 10 / 27, 1 / 162] := by
  have e : ⌊(22 / 3 : ℚ) - 1 / 2 * ((2 : Nat) : ℚ)⌋ = 6 := by norm_num [Int.floor_eq_iff]
  unfold cubic baseNode lowerTrunc
  rw [e]; norm_num

/-- Real numbers have a square root. -/
theorem real_sqrt : IsSqrt Real.sqrt := ⟨fun a _ => Real.sqrt_nonneg a, fun _ h => Real.mul_self_sqrt h⟩

example : ∃ row, delta4 Real.sqrt 32 (5 / 2 : ℝ) = some row ∧ moment 0 1 row = 1 ∧ moment 1 1 row = 5 / 2 := by
  have e : ⌊(5 / 2 : ℝ) - 1 / 2 * ((2 : Nat) : ℝ)⌋ = 1 := by norm_num [Int.floor_eq_iff]
  have hb : baseNode 32 2 (5 / 2 : ℝ) = some 1 := by
    unfold baseNode lowerTrunc
    rw [e]; rfl
  obtain ⟨row, h⟩ : ∃ row, delta4 Real.sqrt 32 (5 / 2 : ℝ) = some row := by
    unfold delta4
    rw [hb]
    exact ⟨_, rfl⟩
  obtain ⟨b, hb', h0, h1, _⟩ := delta4_conditions real_sqrt h
  cases hb.symm.trans hb'
  exact ⟨_, h, h0, h1⟩

end Verif.Kernel
