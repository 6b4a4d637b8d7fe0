import Verif.Model.Kernel
import Verif.Spec.Kernel
import Mathlib.Algebra.Order.Floor.Ring
import Mathlib.Algebra.Order.Field.Basic
import Mathlib.Tactic.Linarith
import Mathlib.Tactic.Ring
import Mathlib.Tactic.FieldSimp
import Mathlib.Tactic.NormNum

/-! Closed forms of the B-splines of degree up to three. -/
namespace Verif.Kernel

variable {K : Type} [Field K] [LinearOrder K] [IsStrictOrderedRing K]

omit [IsStrictOrderedRing K] in
theorem unit_in {x : K} (h1 : -(1 / 2) ≤ x) (h2 : x < 1 / 2) : bspline 0 x = 1 := if_pos ⟨h1, h2⟩
omit [IsStrictOrderedRing K] in
theorem unit_low {x : K} (h : x < -(1 / 2)) : bspline 0 x = 0 := if_neg fun h' => absurd h'.1 (not_le.2 h)
omit [IsStrictOrderedRing K] in
theorem unit_high {x : K} (h : 1 / 2 ≤ x) : bspline 0 x = 0 := if_neg fun h' => absurd h'.2 (not_lt.2 h)

omit [IsStrictOrderedRing K] in
theorem bspline_succ (n : Nat) (x : K) :
    bspline (n + 1) x = (((n + 2 : K) / 2 + x) * bspline n (x + 1 / 2) + ((n + 2 : K) / 2 - x) * bspline n (x - 1 / 2)) / (n + 1 : K) := rfl

theorem bspline_one (x : K) : bspline 1 x = (1 + x) * bspline 0 (x + 1 / 2) + (1 - x) * bspline 0 (x - 1 / 2) := by
  rw [bspline_succ 0]; push_cast; ring

theorem bspline_two (x : K) : bspline 2 x = 1 / 2 * (3 / 2 + x) * (3 / 2 + x) * bspline 0 (x + 1) + (3 / 4 - x * x) * bspline 0 x
    + 1 / 2 * (3 / 2 - x) * (3 / 2 - x) * bspline 0 (x - 1) := by
  rw [bspline_succ 1, bspline_one, bspline_one, show x + 1 / 2 + 1 / 2 = x + 1 by ring, show x + 1 / 2 - 1 / 2 = x by ring,
    show x - 1 / 2 + 1 / 2 = x by ring, show x - 1 / 2 - 1 / 2 = x - 1 by ring]
  push_cast; ring

theorem bspline_three (x : K) : bspline 3 x = (2 + x) * (2 + x) * (2 + x) / 6 * bspline 0 (x + 3 / 2)
    + (2 / 3 - x * x - x * x * x / 2) * bspline 0 (x + 1 / 2) + (2 / 3 - x * x + x * x * x / 2) * bspline 0 (x - 1 / 2)
    + (2 - x) * (2 - x) * (2 - x) / 6 * bspline 0 (x - 3 / 2) := by
  rw [bspline_succ 2, bspline_two, bspline_two, show x + 1 / 2 + 1 = x + 3 / 2 by ring, show x + 1 / 2 - 1 = x - 1 / 2 by ring,
    show x - 1 / 2 + 1 = x + 1 / 2 by ring, show x - 1 / 2 - 1 = x - 3 / 2 by ring]
  push_cast; ring

omit [IsStrictOrderedRing K] in
theorem slope_one (x : K) : slope 1 x = bspline 0 (x + 1 / 2) - bspline 0 (x - 1 / 2) := rfl

theorem slope_two (x : K) : slope 2 x = (3 / 2 + x) * bspline 0 (x + 1) - 2 * x * bspline 0 x - (3 / 2 - x) * bspline 0 (x - 1) := by
  rw [slope, bspline_one, bspline_one, show x + 1 / 2 + 1 / 2 = x + 1 by ring, show x + 1 / 2 - 1 / 2 = x by ring,
    show x - 1 / 2 + 1 / 2 = x by ring, show x - 1 / 2 - 1 / 2 = x - 1 by ring]
  ring

theorem slope_three (x : K) : slope 3 x = (2 + x) * (2 + x) / 2 * bspline 0 (x + 3 / 2) + (-2 * x - 3 / 2 * x * x) * bspline 0 (x + 1 / 2)
    + (-2 * x + 3 / 2 * x * x) * bspline 0 (x - 1 / 2) - (2 - x) * (2 - x) / 2 * bspline 0 (x - 3 / 2) := by
  rw [slope, bspline_two, bspline_two, show x + 1 / 2 + 1 = x + 3 / 2 by ring, show x + 1 / 2 - 1 = x - 1 / 2 by ring,
    show x - 1 / 2 + 1 = x + 1 / 2 by ring, show x - 1 / 2 - 1 = x - 3 / 2 by ring]
  ring

omit [IsStrictOrderedRing K] in
theorem curvature_one (x : K) : curvature 1 x = 0 := by rw [curvature, slope, slope, sub_self]

theorem curvature_two (x : K) : curvature 2 x = bspline 0 (x + 1) - 2 * bspline 0 x + bspline 0 (x - 1) := by
  rw [curvature, slope_one, slope_one, show x + 1 / 2 + 1 / 2 = x + 1 by ring, show x + 1 / 2 - 1 / 2 = x by ring,
    show x - 1 / 2 + 1 / 2 = x by ring, show x - 1 / 2 - 1 / 2 = x - 1 by ring]
  ring

theorem curvature_three (x : K) : curvature 3 x = (2 + x) * bspline 0 (x + 3 / 2) + (-2 - 3 * x) * bspline 0 (x + 1 / 2)
    + (-2 + 3 * x) * bspline 0 (x - 1 / 2) + (2 - x) * bspline 0 (x - 3 / 2) := by
  rw [curvature, slope_two, slope_two, show x + 1 / 2 + 1 = x + 3 / 2 by ring, show x + 1 / 2 - 1 = x - 1 / 2 by ring,
    show x - 1 / 2 + 1 = x + 1 / 2 by ring, show x - 1 / 2 - 1 = x - 3 / 2 by ring]
  ring

/-- Outside of its support a B-spline is zero. -/
theorem bspline_low : ∀ (n : Nat) {x : K}, x < -((n + 1 : K) / 2) → bspline n x = 0 ∧ slope n x = 0 ∧ curvature n x = 0 := by
  have h0 : ∀ (n : Nat) {x : K}, x < -((n + 1 : K) / 2) → bspline n x = 0 := by
    intro n
    induction n with
    | zero => intro x h; exact unit_low (by push_cast at h; linarith)
    | succ n ih =>
      intro x h
      push_cast at h
      rw [bspline, ih (by linarith), ih (by linarith)]; simp
  have h1 : ∀ (n : Nat) {x : K}, x < -((n + 1 : K) / 2) → slope n x = 0 := by
    intro n x h
    cases n with
    | zero => rfl
    | succ n => push_cast at h; rw [slope, h0 n (by linarith), h0 n (by linarith), sub_self]
  intro n x h
  refine ⟨h0 n h, h1 n h, ?_⟩
  cases n with
  | zero => rfl
  | succ n => push_cast at h; rw [curvature, h1 n (by linarith), h1 n (by linarith), sub_self]

theorem bspline_high : ∀ (n : Nat) {x : K}, (n + 1 : K) / 2 ≤ x → bspline n x = 0 ∧ slope n x = 0 ∧ curvature n x = 0 := by
  have h0 : ∀ (n : Nat) {x : K}, (n + 1 : K) / 2 ≤ x → bspline n x = 0 := by
    intro n
    induction n with
    | zero => intro x h; exact unit_high (by push_cast at h; linarith)
    | succ n ih =>
      intro x h
      push_cast at h
      rw [bspline, ih (by linarith), ih (by linarith)]; simp
  have h1 : ∀ (n : Nat) {x : K}, (n + 1 : K) / 2 ≤ x → slope n x = 0 := by
    intro n x h
    cases n with
    | zero => rfl
    | succ n => push_cast at h; rw [slope, h0 n (by linarith), h0 n (by linarith), sub_self]
  intro n x h
  refine ⟨h0 n h, h1 n h, ?_⟩
  cases n with
  | zero => rfl
  | succ n => push_cast at h; rw [curvature, h1 n (by linarith), h1 n (by linarith), sub_self]

variable [FloorRing K]

omit [IsStrictOrderedRing K] in
/-- Where the base node is. -/
theorem base_bounds {w degree : Nat} {x : K} {b : Int} (h : baseNode w degree x = some b) :
    (b : K) ≤ x - 1 / 2 * degree ∧ x - 1 / 2 * degree < b + 1 := by
  unfold baseNode lowerTrunc at h
  split at h
  · cases h; exact ⟨Int.floor_le _, Int.lt_floor_add_one _⟩
  · cases h

omit [LinearOrder K] [IsStrictOrderedRing K] [FloorRing K] in
/-- The value of a row at a node, by cases. -/
theorem entry_cases (b : Int) (row : List K) (f : Int → K) (hlow : ∀ n, n < b → f n = 0) (hhigh : ∀ n, b + row.length ≤ n → f n = 0)
    (hin : ∀ (k : Nat) (hk : k < row.length), row[k] = f (b + k)) (n : Int) : entry b row n = f n := by
  unfold entry
  split
  · rename_i hn
    by_cases hk : (n - b).toNat < row.length
    · rw [List.getD_eq_getElem?_getD, List.getElem?_eq_getElem hk, Option.getD_some, hin]
      congr 1; omega
    · rw [List.getD_eq_getElem?_getD, List.getElem?_eq_none (by omega), Option.getD_none, hhigh n (by omega)]
  · rw [hlow n (by omega)]

end Verif.Kernel
