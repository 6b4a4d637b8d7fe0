import Verif.Spec.Poisson
import Mathlib.Algebra.BigOperators.Group.List.Basic
import Mathlib.Tactic.Linarith
import Mathlib.Tactic.Ring
import Mathlib.Tactic.FieldSimp
import Mathlib.Tactic.Positivity
import Mathlib.Data.Fintype.Card

/-! Helper lemmas for dense grids and sampling. -/
namespace Verif.Poisson

/-! ### Dense grids -/

theorem excl_cons (a : ℤ) (t : List ℤ) : exclSuffixProd (a :: t) = t.prod :: exclSuffixProd t := by
  induction t generalizing a with
  | nil => simp [exclSuffixProd]
  | cons b t ih =>
    have h := ih b
    simp only [exclSuffixProd, List.prod_cons]
    rw [h]
    simp [mul_comm]

def off (dims idx : List ℤ) : ℤ := ((idx.zip (exclSuffixProd dims)).map fun p => p.1 * p.2).sum

theorem off_cons (a i : ℤ) (t s : List ℤ) : off (a :: t) (i :: s) = i * t.prod + off t s := by
  simp [off, excl_cons]

theorem off_nil : off [] [] = 0 := by simp [off]

theorem inRange_pos {idx dims : List ℤ} (h : InRange idx dims) : 0 < dims.prod := by
  induction h with
  | nil => simp
  | cons h _ ih => rw [List.prod_cons]; exact mul_pos (by omega) ih

theorem off_range {idx dims : List ℤ} (h : InRange idx dims) : 0 ≤ off dims idx ∧ off dims idx < dims.prod := by
  induction h with
  | nil => simp [off_nil]
  | @cons i n s t hi hs ih =>
    rw [off_cons, List.prod_cons]
    have hp := inRange_pos hs
    have h1 : 0 ≤ i * t.prod := mul_nonneg hi.1 hp.le
    have h2 : (i + 1) * t.prod ≤ n * t.prod := mul_le_mul_of_nonneg_right (by omega) hp.le
    constructor
    · omega
    · nlinarith [ih.2]

theorem off_inj {i j dims : List ℤ} (hi : InRange i dims) (hj : InRange j dims) (h : off dims i = off dims j) : i = j := by
  induction hi generalizing j with
  | nil => cases hj; rfl
  | @cons a n s t ha hs ih =>
    cases hj with
    | @cons b _ s' _ hb hs' =>
      rw [off_cons, off_cons] at h
      have r1 := off_range hs
      have r2 := off_range hs'
      have hab : a = b := by
        rcases lt_trichotomy a b with hlt | heq | hgt
        · have : (a + 1) * t.prod ≤ b * t.prod := mul_le_mul_of_nonneg_right (by omega) (inRange_pos hs).le
          nlinarith
        · exact heq
        · have : (b + 1) * t.prod ≤ a * t.prod := mul_le_mul_of_nonneg_right (by omega) (inRange_pos hs).le
          nlinarith
      subst hab
      rw [ih hs' (by omega)]

/-- A grid with the weights of its dimensions and a cell for every index. -/
structure Grid.OK (g : Grid) : Prop where
  weights : g.weights = exclSuffixProd g.dims
  size : (g.cells.length : ℤ) = g.dims.prod

theorem offset_eq {g : Grid} (h : g.weights = exclSuffixProd g.dims) (idx : List ℤ) : g.offset idx = off g.dims idx := by
  rw [Grid.offset, h, off]

theorem read_some {g : Grid} (h : g.OK) {idx : List ℤ} (hi : InRange idx g.dims) : ∃ v, g.read idx = some v := by
  have r := off_range hi
  rw [Grid.read, offset_eq h.weights, if_pos r.1]
  have : (off g.dims idx).toNat < g.cells.length := by have := h.size; omega
  exact ⟨_, List.getElem?_eq_getElem this⟩

theorem write_some {g : Grid} (h : g.OK) {idx : List ℤ} (hi : InRange idx g.dims) (v : ℤ) :
    ∃ g', g.write idx v = some g' ∧ g'.OK ∧ g'.dims = g.dims ∧ g'.read idx = some v ∧ ∀ j, InRange j g.dims → j ≠ idx → g'.read j = g.read j := by
  have r := off_range hi
  have hlt : (off g.dims idx).toNat < g.cells.length := by have := h.size; omega
  refine ⟨{ g with cells := g.cells.set (off g.dims idx).toNat v }, ?_, ⟨h.weights, ?_⟩, rfl, ?_, fun j hj hne => ?_⟩
  · rw [Grid.write, offset_eq h.weights, if_pos ⟨r.1, hlt⟩]
  · simp only [List.length_set]; exact h.size
  · rw [Grid.read, offset_eq (by exact h.weights)]
    change (if 0 ≤ off g.dims idx then (g.cells.set (off g.dims idx).toNat v)[(off g.dims idx).toNat]? else none) = _
    rw [if_pos r.1, List.getElem?_set_self hlt]
  · rw [Grid.read, Grid.read, offset_eq (by exact h.weights), offset_eq h.weights]
    change (if 0 ≤ off g.dims j then (g.cells.set (off g.dims idx).toNat v)[(off g.dims j).toNat]? else none) = _
    have rj := off_range hj
    have hne' : off g.dims idx ≠ off g.dims j := fun e => hne (off_inj hj hi e.symm)
    rw [List.getElem?_set_ne (by omega)]

theorem make_ok {dims : List ℤ} (hd : 0 ≤ dims.prod) (v : ℤ) : (Grid.make fullSize dims v).OK := by
  refine ⟨rfl, ?_⟩
  simp only [Grid.make, fullSize, List.length_replicate]
  omega

theorem make_read {dims : List ℤ} {idx : List ℤ} (h : InRange idx dims) (v : ℤ) : (Grid.make fullSize dims v).read idx = some v := by
  have r := off_range h
  rw [Grid.read, offset_eq rfl]
  change (if 0 ≤ off dims idx then (List.replicate dims.prod.toNat v)[(off dims idx).toNat]? else none) = _
  rw [if_pos r.1, List.getElem?_replicate, if_pos (by omega)]

theorem inRange2 {a b n m : ℤ} : InRange [a, b] [n, m] ↔ (0 ≤ a ∧ a < n) ∧ 0 ≤ b ∧ b < m := by
  simp [InRange]

/-! ### Numbers -/

theorem side_pos {c : Cfg} (h : 0 < c.minDistance) : 0 < side c := div_pos h (Real.sqrt_pos.2 (by norm_num))

theorem side_sq (c : Cfg) : c.minDistance * c.minDistance = 2 * (side c * side c) := by
  have : Real.sqrt 2 * Real.sqrt 2 = 2 := Real.mul_self_sqrt (by norm_num)
  unfold side
  rw [div_mul_div_comm, this]; ring

/-- Close numbers are in close cells. -/
theorem floor_close {x y lo h : ℝ} (hh : 0 < h) (hd : |x - y| < 2 * h) : ⌊(y - lo) / h⌋ - 2 ≤ ⌊(x - lo) / h⌋ ∧ ⌊(x - lo) / h⌋ ≤ ⌊(y - lo) / h⌋ + 2 := by
  obtain ⟨d1, d2⟩ := abs_lt.1 hd
  have e : (x - lo) / h - (y - lo) / h = (x - y) / h := by ring
  have a1 : (x - y) / h < 2 := by rw [div_lt_iff₀ hh]; exact d2
  have a2 : -2 < (x - y) / h := by rw [lt_div_iff₀ hh]; linarith
  have f1 := Int.floor_le ((x - lo) / h)
  have f2 := Int.lt_floor_add_one ((x - lo) / h)
  have f3 := Int.floor_le ((y - lo) / h)
  have f4 := Int.lt_floor_add_one ((y - lo) / h)
  constructor
  · have : ((⌊(y - lo) / h⌋ : ℤ) : ℝ) < ((⌊(x - lo) / h⌋ + 3 : ℤ) : ℝ) := by push_cast; linarith
    have := Int.cast_lt.1 this
    omega
  · have : ((⌊(x - lo) / h⌋ : ℤ) : ℝ) < ((⌊(y - lo) / h⌋ + 3 : ℤ) : ℝ) := by push_cast; linarith
    have := Int.cast_lt.1 this
    omega

/-- Numbers in the same cell are close. -/
theorem floor_same {x y lo h : ℝ} (hh : 0 < h) (e : ⌊(x - lo) / h⌋ = ⌊(y - lo) / h⌋) : (x - y) * (x - y) < h * h := by
  have f1 := Int.floor_le ((x - lo) / h)
  have f2 := Int.lt_floor_add_one ((x - lo) / h)
  have f3 := Int.floor_le ((y - lo) / h)
  have f4 := Int.lt_floor_add_one ((y - lo) / h)
  rw [e] at f1 f2
  have e2 : (x - lo) / h - (y - lo) / h = (x - y) / h := by ring
  have a1 : x - y < h := by
    have : (x - y) / h < 1 := by linarith
    rwa [div_lt_one hh] at this
  have a2 : -h < x - y := by
    have : -1 < (x - y) / h := by linarith
    rw [lt_div_iff₀ hh] at this; linarith
  nlinarith

theorem floor_shift {x lo h l : ℝ} {n k : ℤ} (hh : 0 < h) (hl : l = n * h) : ⌊(x + k * l - lo) / h⌋ = ⌊(x - lo) / h⌋ + k * n := by
  have : (x + k * l - lo) / h = (x - lo) / h + ((k * n : ℤ) : ℝ) := by
    rw [hl]; push_cast; field_simp; ring
  rw [this, Int.floor_add_intCast]

theorem abs_lt_of_nsq {c : Cfg} (h : 0 < c.minDistance) {a b : ℝ} (hn : nsq (a, b) < c.minDistance * c.minDistance) : |a| < 2 * side c ∧ |b| < 2 * side c := by
  have hs := side_pos h
  rw [side_sq] at hn
  simp only [nsq] at hn
  constructor
  · refine abs_lt_of_sq_lt_sq ?_ (by linarith)
    nlinarith [mul_self_nonneg b]
  · refine abs_lt_of_sq_lt_sq ?_ (by linarith)
    nlinarith [mul_self_nonneg a]

theorem mem_loop {a b x : ℤ} : x ∈ loop a b ↔ a ≤ x ∧ x < b := by
  simp only [loop, List.mem_map, List.mem_range]
  constructor
  · rintro ⟨k, hk, rfl⟩; omega
  · intro h; exact ⟨(x - a).toNat, by omega, by omega⟩

theorem mem_window {l u : C} {j : C} : j ∈ ((loop l.1 u.1).flatMap fun x => (loop l.2 u.2).map fun y => (x, y)) ↔ (l.1 ≤ j.1 ∧ j.1 < u.1) ∧ l.2 ≤ j.2 ∧ j.2 < u.2 := by
  simp only [List.mem_flatMap, List.mem_map]
  constructor
  · rintro ⟨x, hx, y, hy, rfl⟩; exact ⟨mem_loop.1 hx, mem_loop.1 hy⟩
  · rintro ⟨h1, h2⟩; exact ⟨j.1, mem_loop.2 h1, j.2, mem_loop.2 h2, rfl⟩

/-- The index and the shift that the code computes for an index of the window. -/
theorem wrap_eq {i n : ℤ} (hn : 3 ≤ n) (h1 : -2 ≤ i) (h2 : i < n + 2) (lo hi : ℝ) : wrap i n lo hi = (i % n, (i / n : ℤ) * (hi - lo)) := by
  unfold wrap
  by_cases a : i < 0
  · rw [if_pos a]
    have hq : i / n = -1 := by
      rw [Int.ediv_eq_iff_of_pos (by omega)]; constructor <;> nlinarith
    have hm : i % n = i + n := by have := Int.emod_add_mul_ediv i n; rw [hq] at this; omega
    have ht : i.tmod n = i := by
      have e : i = -(-i) := by omega
      rw [e, Int.neg_tmod, Int.tmod_eq_of_lt (by omega) (by omega)]
    rw [hq, hm, ht]; push_cast; congr 1; ring
  · rw [if_neg a]
    by_cases b : i ≥ n
    · rw [if_pos b]
      have hq : i / n = 1 := by
        rw [Int.ediv_eq_iff_of_pos (by omega)]; constructor <;> nlinarith
      rw [hq, Int.tmod_eq_emod_of_nonneg (by omega)]; push_cast; congr 1; ring
    · rw [if_neg b]
      have hq : i / n = 0 := Int.ediv_eq_zero_of_lt (by omega) (by omega)
      rw [hq, Int.emod_eq_of_lt (by omega) (by omega)]; simp

end Verif.Poisson
