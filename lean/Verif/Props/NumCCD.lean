import Verif.Proof.NumCCD
import Mathlib.Data.Real.Basic
/-! # C19, C20, C61: dyadic numbers and the CCD root finders -/
namespace Verif.NumCCD

/-! ### C19 -/

private theorem scale_val (k n m : Nat) (h : n ≤ m) :
    (k : ℚ) / 2 ^ n = (k * 2 ^ (m - n) : Nat) / 2 ^ m := by
  have := val_scale k n (m - n)
  rw [Num.val, Num.val] at this
  simp only at this
  rw [show n + (m - n) = m by omega] at this
  exact this.symm

/-- C19: addition agrees with the rational values as long as the common numerator fits 64 bits and,
for equal denominators `2^n`, the sum is not a non-zero multiple of 2. -/
theorem add_exact (x y : Num) (hx : x.n < 64) (hy : y.n < 64)
    (hov : x.k * 2 ^ (max x.n y.n - x.n) + y.k * 2 ^ (max x.n y.n - y.n) < 2 ^ 64)
    (hw : x.n = y.n → x.k + y.k = 0 ∨ ¬ 2 ^ (x.n + 1) ∣ x.k + y.k) :
    ∃ z, add x y = some z ∧ z.val = x.val + y.val ∧ z.n ≤ max x.n y.n := by
  rw [add]
  by_cases he : x.n = y.n
  · rw [if_pos he]
    rw [he] at hov
    simp only [max_self, Nat.sub_self, pow_zero, mul_one] at hov
    rw [Nat.mod_eq_of_lt hov, reduction]
    obtain ⟨j, h1, h2, h3, h4⟩ := redLoop_spec (x.k + y.k) 0
    have hj : j ≤ y.n := by
      rcases hw he with h0 | h0
      · rw [h3 h0]; omega
      · by_contra hc
        exact h0 ((pow_dvd_pow 2 (by omega)).trans h2)
    refine ⟨_, rfl, ?_, ?_⟩
    · rw [h1]
      simp only [Nat.zero_add]
      rw [show (y.n + 256 - j) % 256 = y.n - j by omega]
      obtain ⟨q, hq⟩ := h2
      rw [hq, Nat.mul_div_cancel_left _ (by positivity)]
      simp only [Num.val]
      rw [he, ← add_div]
      have : ((x.k : ℚ) + y.k) = 2 ^ j * q := by exact_mod_cast hq
      rw [this, div_eq_div_iff (by positivity) (by positivity)]
      have : (2 : ℚ) ^ y.n = 2 ^ (y.n - j) * 2 ^ j := by rw [← pow_add]; congr 1; omega
      rw [this]; ring
    · rw [h1]; simp only; omega
  · rw [if_neg he]
    by_cases hlt : y.n > x.n
    · rw [if_pos hlt, pow2, if_pos (by omega)]
      rw [max_eq_right hlt.le, Nat.sub_self, pow_zero, mul_one] at hov
      refine ⟨_, rfl, ?_, by simp⟩
      simp only [Num.val]
      rw [Nat.mod_eq_of_lt hov, scale_val x.k x.n y.n hlt.le, ← add_div]
      push_cast; rfl
    · rw [if_neg hlt, pow2, if_pos (by omega)]
      rw [max_eq_left (by omega), Nat.sub_self, pow_zero, mul_one] at hov
      refine ⟨_, rfl, ?_, by simp⟩
      simp only [Num.val]
      rw [Nat.mod_eq_of_lt hov, scale_val y.k y.n x.n (by omega), ← add_div]
      push_cast; rfl

example : add ⟨3, 2⟩ ⟨1, 3⟩ = some ⟨7, 3⟩ ∧ add ⟨1, 2⟩ ⟨1, 2⟩ = some ⟨1, 1⟩ := by
  constructor
  · decide
  · simp [add, reduction, redLoop]

/-- C19, violated in every other case with equal denominators: the 8-bit exponent wraps around. -/
theorem add_wrap_violated (x y : Num) (hx : x.n < 64) (he : x.n = y.n) (h0 : x.k + y.k ≠ 0)
    (hov : x.k + y.k < 2 ^ 64) (hd : 2 ^ (x.n + 1) ∣ x.k + y.k) :
    ∃ z, add x y = some z ∧ z.val < x.val + y.val := by
  rw [add, if_pos he, Nat.mod_eq_of_lt hov, reduction]
  obtain ⟨j, h1, h2, h3, h4⟩ := redLoop_spec (x.k + y.k) 0
  have hj : x.n < j := by
    by_contra hc
    have := h4 h0
    apply this
    have e : 2 ^ j * 2 ∣ x.k + y.k := by
      rw [← pow_succ]; exact (pow_dvd_pow 2 (by omega)).trans hd
    exact (Nat.dvd_div_iff_mul_dvd h2).mpr e
  have hj2 : j < 64 := by
    by_contra hc
    have h5 := Nat.le_of_dvd (by omega) h2
    have h6 := Nat.pow_le_pow_right (show 0 < 2 by decide) (show 64 ≤ j by omega)
    omega
  refine ⟨_, rfl, ?_⟩
  rw [h1]
  simp only [Nat.zero_add]
  rw [show (y.n + 256 - j) % 256 = y.n + 256 - j by omega]
  obtain ⟨q, hq⟩ := h2
  have hq0 : 0 < q := by rcases Nat.eq_zero_or_pos q with h | h; · simp [h] at hq; omega
                         · exact h
  rw [hq, Nat.mul_div_cancel_left _ (by positivity)]
  simp only [Num.val]
  rw [he, ← add_div]
  have : ((x.k : ℚ) + y.k) = 2 ^ j * q := by exact_mod_cast hq
  have hq0' : (0 : ℚ) < q := by exact_mod_cast hq0
  rw [this, div_lt_div_iff₀ (by positivity) (by positivity)]
  have e : (2 : ℚ) ^ y.n < 2 ^ j * 2 ^ (y.n + 256 - j) := by
    rw [← pow_add]; exact pow_lt_pow_right₀ (by norm_num) (by omega)
  nlinarith

/-- The smallest instance: 1 + 1 is computed as 2^-255. -/
example : add ⟨1, 0⟩ ⟨1, 0⟩ = some ⟨1, 255⟩ := by simp [add, reduction, redLoop]

/-- C19: comparison agrees with the values when the scaled numerators fit 64 bits. -/
theorem lt_exact (x y : Num) (hx : x.n < 64) (hy : y.n < 64)
    (h1 : x.k * 2 ^ (y.n - x.n) < 2 ^ 64) (h2 : y.k * 2 ^ (x.n - y.n) < 2 ^ 64) :
    lt x y = some (decide (x.val < y.val)) := by
  rw [lt]
  by_cases hlt : x.n < y.n
  · rw [if_pos hlt, pow2, if_pos (by omega)]
    simp only [Option.bind_eq_bind, Option.bind_some, Option.pure_def, Option.some.injEq,
      decide_eq_decide]
    rw [Nat.mul_comm, Nat.mod_eq_of_lt h1, Num.val, Num.val, scale_val x.k x.n y.n hlt.le,
      div_lt_div_iff_of_pos_right (by positivity)]
    norm_cast
  · rw [if_neg hlt]
    by_cases hgt : x.n > y.n
    · rw [if_pos hgt, pow2, if_pos (by omega)]
      simp only [Option.bind_eq_bind, Option.bind_some, Option.pure_def, Option.some.injEq,
        decide_eq_decide]
      rw [Nat.mul_comm, Nat.mod_eq_of_lt h2, Num.val, Num.val, scale_val y.k y.n x.n hgt.le,
        div_lt_div_iff_of_pos_right (by positivity)]
      norm_cast
    · rw [if_neg hgt]
      simp only [Option.some.injEq, decide_eq_decide]
      rw [Num.val, Num.val, show x.n = y.n by omega, div_lt_div_iff_of_pos_right (by positivity)]
      norm_cast

/-- C19 outside the stated range: 2^-62 < 4 is answered `false` because 4 * 2^62 wraps to 0.  (The
breadth-first root finder makes exactly this comparison.) -/
theorem lt_overflow_violated : lt ⟨1, 62⟩ ⟨4, 0⟩ = some false := by decide

/-- A number in lowest terms. -/
def Reduced (x : Num) : Prop := x.n = 0 ∨ x.k % 2 = 1

/-- C19: on numbers in lowest terms `<=` agrees with the values. -/
theorem le_exact (x y : Num) (hx : x.n < 64) (hy : y.n < 64)
    (h1 : x.k * 2 ^ (y.n - x.n) < 2 ^ 64) (h2 : y.k * 2 ^ (x.n - y.n) < 2 ^ 64)
    (rx : Reduced x) (ry : Reduced y) :
    le x y = some (decide (x.val ≤ y.val)) := by
  rw [le]
  by_cases he : x = y
  · rw [if_pos he, he]; simp
  · rw [if_neg he, lt_exact x y hx hy h1 h2]
    simp only [Option.some.injEq, decide_eq_decide]
    refine ⟨le_of_lt, fun h => lt_of_le_of_ne h fun hv => he ?_⟩
    have hv' : x.k * 2 ^ y.n = y.k * 2 ^ x.n :=
      Nat.le_antisymm ((val_le_iff x y).mp hv.le) ((val_le_iff y x).mp hv.ge)
    have key : ∀ a b : Num, Reduced b → a.n < b.n → a.k * 2 ^ b.n ≠ b.k * 2 ^ a.n := by
      intro a b rb hab hk
      have : 2 ^ b.n = 2 ^ (b.n - a.n - 1) * 2 * 2 ^ a.n := by
        rw [← pow_succ, ← pow_add]; congr 1; omega
      rw [this, ← Nat.mul_assoc] at hk
      have h5 := Nat.eq_of_mul_eq_mul_right (by positivity) hk
      rcases rb with h0 | h0
      · omega
      · rw [← Nat.mul_assoc] at h5; omega
    have hn : x.n = y.n := by
      rcases Nat.lt_trichotomy x.n y.n with h | h | h
      · exact absurd hv' (key x y ry h)
      · exact h
      · exact absurd hv'.symm (key y x rx h)
    rw [hn] at hv'
    have := Nat.eq_of_mul_eq_mul_right (by positivity) hv'
    cases x; cases y; simp_all

/-- C19, violated for unreduced operands: 1 <= 2/2 is answered `false`. -/
theorem le_unreduced_violated :
    le ⟨1, 0⟩ ⟨2, 1⟩ = some false ∧ (⟨1, 0⟩ : Num).val = (⟨2, 1⟩ : Num).val := by
  refine ⟨by decide, ?_⟩
  simp [Num.val]

/-- C19: `is_sum_leq_1` decides `a + b <= 1`. -/
theorem isSumLeq1_exact (x y : Num) (hx : x.n < 64) (hy : y.n < 64)
    (hov : x.k * 2 ^ (max x.n y.n - x.n) + y.k * 2 ^ (max x.n y.n - y.n) < 2 ^ 64) :
    isSumLeq1 x y = some (decide (x.val + y.val ≤ 1)) := by
  rw [isSumLeq1]
  by_cases he : x.n = y.n
  · rw [if_pos he, pow2, if_pos hx]
    rw [he] at hov
    simp only [max_self, Nat.sub_self, pow_zero, mul_one] at hov
    simp only [Option.bind_eq_bind, Option.bind_some, Option.pure_def, Option.some.injEq,
      decide_eq_decide]
    rw [Nat.mod_eq_of_lt hov, Num.val, Num.val, he, ← add_div, div_le_one (by positivity)]
    norm_cast
  · rw [if_neg he]
    obtain ⟨z, h1, h2, h3⟩ := add_exact x y hx hy hov (fun h => absurd h he)
    rw [h1]
    simp only [Option.bind_eq_bind, Option.bind_some]
    rw [pow2, if_pos (by omega)]
    simp only [Option.bind_some, Option.pure_def, Option.some.injEq, decide_eq_decide]
    rw [← h2, val_le_one]

/-- A 63-bit interval inside `[0,1]` with a non-empty interior. -/
def Iv.Good (i : Iv) : Prop :=
  i.lo.n < 64 ∧ i.up.n < 64 ∧ i.lo.val < i.up.val ∧ i.up.val ≤ 1

private theorem sum_fits (x y : Num) (h : x.val + y.val < 2) :
    x.k * 2 ^ (max x.n y.n - x.n) + y.k * 2 ^ (max x.n y.n - y.n) < 2 ^ (max x.n y.n + 1) := by
  rw [Num.val, Num.val, scale_val x.k x.n _ (le_max_left x.n y.n),
    scale_val y.k y.n _ (le_max_right x.n y.n), ← add_div, div_lt_iff₀ (by positivity)] at h
  rw [pow_succ']
  exact_mod_cast h

private theorem sum_fits64 (x y : Num) (hx : x.n < 64) (hy : y.n < 64) (h : x.val + y.val < 2) :
    x.k * 2 ^ (max x.n y.n - x.n) + y.k * 2 ^ (max x.n y.n - y.n) < 2 ^ 64 :=
  lt_of_lt_of_le (sum_fits x y h) (Nat.pow_le_pow_right (by decide) (by omega))

/-- C19: bisecting an interval inside `[0,1]` splits it exactly at its midpoint. -/
theorem bisect_exact (i : Iv) (h : i.Good) :
    ∃ mid, bisect i = some (⟨i.lo, mid⟩, ⟨mid, i.up⟩) ∧ mid.val = (i.lo.val + i.up.val) / 2 ∧
      i.lo.val < mid.val ∧ mid.val < i.up.val ∧ mid.n ≤ max i.lo.n i.up.n + 1 := by
  obtain ⟨h1, h2, h3, h4⟩ := h
  have hs : i.up.val + i.lo.val < 2 := by linarith
  have h5 := sum_fits _ _ hs
  obtain ⟨z, e1, e2, e3⟩ := add_exact i.up i.lo h2 h1 (sum_fits64 _ _ h2 h1 hs) (by
    intro he
    by_cases h0 : i.up.k + i.lo.k = 0
    · exact Or.inl h0
    · right
      intro hd
      rw [he] at h5
      simp only [max_self, Nat.sub_self, pow_zero, mul_one] at h5
      rw [he] at hd
      have := Nat.le_of_dvd (by omega) hd
      omega)
  refine ⟨⟨z.k, (z.n + 1) % 256⟩, by simp [bisect, e1], ?_⟩
  have hz : (z.n + 1) % 256 = z.n + 1 := Nat.mod_eq_of_lt (by omega)
  have hv : (⟨z.k, (z.n + 1) % 256⟩ : Num).val = (i.lo.val + i.up.val) / 2 := by
    rw [hz]
    have : (⟨z.k, z.n + 1⟩ : Num).val = z.val / 2 := by
      simp only [Num.val]; rw [pow_succ, div_div]
    rw [this, e2, add_comm]
  refine ⟨hv, by rw [hv]; linarith, by rw [hv]; linarith, ?_⟩
  simp only [hz]
  rw [max_comm]; omega

example : (⟨⟨1, 1⟩, ⟨3, 2⟩⟩ : Iv).Good ∧
    bisect ⟨⟨1, 1⟩, ⟨3, 2⟩⟩ = some (⟨⟨1, 1⟩, ⟨5, 3⟩⟩, ⟨⟨5, 3⟩, ⟨3, 2⟩⟩) := by
  refine ⟨⟨by decide, by decide, ?_, ?_⟩, by decide⟩
  · rw [val_lt]; decide
  · rw [val_le_one]; decide

/-! ### C20: order of the work list -/

/-- A box whose bounds are below 1 and have at most 63 fractional bits (all boxes the root finder
creates before overflow). -/
def TimeOk (b : Box) : Prop := (b 0).lo.n < 64 ∧ (b 0).lo.val < 1

private theorem fits_of_lt_one (x : Num) (m : Nat) (hm : m < 64) (hx : x.n < 64) (h : x.val < 1) :
    x.k * 2 ^ (m - x.n) < 2 ^ 64 := by
  rw [val_lt_one] at h
  have h1 : x.k * 2 ^ (m - x.n) < 2 ^ x.n * 2 ^ (m - x.n) :=
    Nat.mul_lt_mul_of_pos_right h (by positivity)
  rw [← pow_add] at h1
  exact lt_of_lt_of_le h1 (Nat.pow_le_pow_right (by decide) (by omega))

/-- C20 (partial): taking a box off the work list removes exactly that box and keeps all others.
Missing: that it is the earliest one, which is false (`pop_latest_violated`). -/
theorem pop_partial (s rest : List Box) (b : Box) (h : pop cmpTime s = some (b, rest)) :
    (b :: rest).Perm s := pop_perm cmpTime s rest b h

/-- C20, violated: the work list always hands out a pending box with the *largest* start time. -/
theorem pop_latest_violated (s rest : List Box) (b : Box) (hg : ∀ x ∈ s, TimeOk x)
    (h : pop cmpTime s = some (b, rest)) : ∀ x ∈ s, (x 0).lo.val ≤ (b 0).lo.val := by
  have key : ∀ x y : Box, TimeOk x → TimeOk y →
      cmpTime x y = some (!decide ((x 0).lo.val < (y 0).lo.val)) := by
    intro x y hx hy
    rw [cmpTime, ge, lt_exact _ _ hx.1 hy.1 (fits_of_lt_one _ _ hy.1 hx.1 hx.2)
      (fits_of_lt_one _ _ hx.1 hy.1 hy.2)]
    rfl
  apply pop_max cmpTime (fun x => (x 0).lo.val) TimeOk _ _ s rest b hg h
  · intro x y hx hy hc
    rw [key x y hx hy] at hc
    simpa using hc
  · intro x y hx hy hc
    rw [key x y hx hy] at hc
    simp at hc
    exact hc.le

/-- Witness function `f(t,u,v) = t - u` (two edges sliding along each other, in contact at `u = t` for
every time): a box meets the origin iff its `t` and `u` ranges overlap. -/
def slideZeroIn (b : Box) : Bool :=
  (le (b 0).lo (b 1).up == some true) && (le (b 1).lo (b 0).up == some true)

/-- Accept boxes of width at most 1/2. -/
def slideDone (b : Box) : Bool :=
  decide ((b 0).up ≠ ⟨1, 0⟩ ∨ (b 0).lo ≠ ⟨0, 0⟩) && decide ((b 1).up ≠ ⟨1, 0⟩ ∨ (b 1).lo ≠ ⟨0, 0⟩)

/-- Split time first, then `u`. -/
def slidePick (b : Box) : Fin 3 := if (b 0).up = ⟨1, 0⟩ ∧ (b 0).lo = ⟨0, 0⟩ then 0 else 1

private def half1 : Iv := ⟨⟨0, 0⟩, ⟨1, 1⟩⟩
private def half2 : Iv := ⟨⟨1, 1⟩, ⟨1, 0⟩⟩

private theorem bisect_unit : bisect ⟨⟨0, 0⟩, ⟨1, 0⟩⟩ = some (half1, half2) := by
  simp [bisect, add, reduction, redLoop, half1, half2]

private theorem split_t : splitAndPush (fun _ => true) false unitBox 0
    = some (false, [unitBox.set 0 half2, unitBox.set 0 half1]) := by
  rw [splitAndPush, show unitBox 0 = ⟨⟨0, 0⟩, ⟨1, 0⟩⟩ from rfl, bisect_unit]
  rfl

private theorem split_u : splitAndPush (fun _ => true) false (unitBox.set 0 half2) 1
    = some (false, [(unitBox.set 0 half2).set 1 half2, (unitBox.set 0 half2).set 1 half1]) := by
  rw [splitAndPush, show (unitBox.set 0 half2) 1 = ⟨⟨0, 0⟩, ⟨1, 0⟩⟩ from rfl, bisect_unit]
  rfl

/-- C20, violated end to end: for the sliding contact the root finder reports time 1/2, although the
box `[0,1/2]^2 x [0,1]`, acceptable by the same criteria and containing a contact at time 0, is still
pending. -/
theorem dfs_not_earliest_violated :
    dfs slideZeroIn slideDone slidePick false 10 [unitBox] = some (true, some ⟨1, 1⟩) ∧
      slideZeroIn ((unitBox.set 0 half1).set 1 half1) = true ∧
      slideDone ((unitBox.set 0 half1).set 1 half1) = true := by
  refine ⟨?_, by decide, by decide⟩
  have p1 : slidePick unitBox = 0 := by decide
  have p2 : slidePick (unitBox.set 0 half2) = 1 := by decide
  have q1 : pop cmpTime [unitBox] = some (unitBox, []) := rfl
  have q2 : pop cmpTime [unitBox.set 0 half2, unitBox.set 0 half1]
      = some (unitBox.set 0 half2, [unitBox.set 0 half1]) := rfl
  have q3 : pop cmpTime [unitBox.set 0 half1, (unitBox.set 0 half2).set 1 half2,
      (unitBox.set 0 half2).set 1 half1] = some ((unitBox.set 0 half2).set 1 half1,
        [unitBox.set 0 half1, (unitBox.set 0 half2).set 1 half2]) := rfl
  rw [dfs, q1]
  simp only [Option.bind_eq_bind, Option.bind_some]
  rw [p1, split_t]
  simp only [Option.bind_some, pushAll, List.length_nil, List.nil_append]
  have c1 : ge (unitBox 0).lo ⟨1, 0⟩ = some false := by decide
  rw [c1]
  simp only [Option.bind_some]
  rw [if_neg (by decide), if_neg (by decide), if_neg (by decide), if_neg (by decide)]
  simp only [Nat.zero_add, Nat.reduceLT, if_true, List.nil_append, List.length_cons,
    List.length_nil, gt_iff_lt, Nat.reduceAdd, if_false, List.cons_append]
  simp only [Bool.false_eq_true, if_false]
  rw [dfs, q2]
  simp only [Option.bind_eq_bind, Option.bind_some]
  rw [p2, split_u]
  have c2 : ge ((unitBox.set 0 half2) 0).lo ⟨1, 0⟩ = some false := by decide
  rw [c2]
  simp only [Option.bind_some, pushAll]
  rw [if_neg (by decide), if_neg (by decide), if_neg (by decide), if_neg (by decide)]
  simp only [Nat.zero_add, Nat.reduceLT, if_true, List.nil_append, List.length_cons,
    List.length_nil, gt_iff_lt, Nat.reduceAdd, if_false, List.cons_append]
  simp only [Bool.false_eq_true, if_false]
  rw [dfs, q3]
  simp only [Option.bind_eq_bind, Option.bind_some]
  have c3 : ge (((unitBox.set 0 half2).set 1 half1) 0).lo ⟨1, 0⟩ = some false := by decide
  rw [c3]
  simp only [Option.bind_some]
  rw [if_neg (by decide), if_neg (by decide), if_neg (by decide), if_pos (by decide)]
  rfl

/-! ### C61: the root finders are conservative

`p` ranges over points `(t,u,v)` of the parameter cube; `Root p` says that the two primitives touch at
those parameters.  The only assumption on the floating point box test is that it is itself sound: it
does not reject a box that contains a root. -/

/-- The point lies in the box. -/
def InBox (p : Fin 3 → ℝ) (b : Box) : Prop :=
  ∀ i, ((b i).lo.val : ℝ) ≤ p i ∧ p i ≤ ((b i).up.val : ℝ)

private def BoxOk (b : Box) : Prop := ∀ i, (b i).lo.val < (b i).up.val ∧ (b i).up.val ≤ 1

private theorem evaluable_iff (b : Box) (h : evaluable b = true) (i : Fin 3) :
    (b i).lo.n < 64 ∧ (b i).up.n < 64 := by
  rw [evaluable, List.all_eq_true] at h
  have := h i (List.mem_finRange i)
  simpa using this

private theorem isSum_true (x y : Num) (c : Bool) (hx : x.val < 1) (hy : y.val < 1)
    (hs : x.val + y.val ≤ 1) (h : isSumLeq1 x y = some c) : c = true := by
  by_cases h1 : x.n < 64 ∧ y.n < 64
  · rw [isSumLeq1_exact x y h1.1 h1.2 (sum_fits64 x y h1.1 h1.2 (by linarith))] at h
    rw [← Option.some.inj h]; simpa using hs
  · exfalso
    rw [isSumLeq1] at h
    by_cases he : x.n = y.n
    · rw [if_pos he, pow2, if_neg (by omega)] at h; cases h
    · rw [if_neg he, add, if_neg he] at h
      by_cases hg : y.n > x.n
      · rw [if_pos hg] at h
        cases hp : pow2 (y.n - x.n) with
        | none => simp [hp] at h
        | some s => simp [hp] at h; rw [pow2, if_neg (by omega)] at h; simp at h
      · rw [if_neg hg] at h
        cases hp : pow2 (x.n - y.n) with
        | none => simp [hp] at h
        | some s => simp [hp] at h; rw [pow2, if_neg (by omega)] at h; simp at h

private theorem set_ok (b : Box) (i : Fin 3) (x : Iv) (hb : BoxOk b)
    (hx : x.lo.val < x.up.val ∧ x.up.val ≤ 1) : BoxOk (b.set i x) := by
  intro j
  rw [Box.set]; split
  · exact hx
  · exact hb j

private theorem set_in (p : Fin 3 → ℝ) (b : Box) (i : Fin 3) (x : Iv) (hb : InBox p b)
    (hx : (x.lo.val : ℝ) ≤ p i ∧ p i ≤ (x.up.val : ℝ)) : InBox p (b.set i x) := by
  intro j
  rw [Box.set]; split
  · rename_i h; rw [h]; exact hx
  · exact hb j

private theorem split_spec (overlaps : Iv → Bool) (vf : Bool) (b : Box) (i : Fin 3) (p : Fin 3 → ℝ)
    (pushed : List Box) (hok : BoxOk b) (hev : evaluable b = true)
    (hov : ∀ x : Iv, (x.lo.val : ℝ) ≤ p 0 → p 0 ≤ (x.up.val : ℝ) → overlaps x = true)
    (hvf : vf = true → p 1 + p 2 ≤ 1)
    (h : splitAndPush overlaps vf b i = some (false, pushed)) :
    (∀ c ∈ pushed, BoxOk c ∧ ∀ j, j ≠ i → c j = b j) ∧
    (∀ c ∈ pushed, (c i).lo.n ≤ max (b i).lo.n (b i).up.n + 1 ∧
      (c i).up.n ≤ max (b i).lo.n (b i).up.n + 1) ∧
    (InBox p b → ∃ c ∈ pushed, InBox p c) := by
  obtain ⟨n1, n2⟩ := evaluable_iff b hev i
  obtain ⟨mid, e1, e2, e3, e4, e5⟩ := bisect_exact (b i) ⟨n1, n2, (hok i).1, (hok i).2⟩
  have o2 : BoxOk (b.set i ⟨mid, (b i).up⟩) := set_ok b i _ hok ⟨e4, (hok i).2⟩
  have o1 : BoxOk (b.set i ⟨(b i).lo, mid⟩) := set_ok b i _ hok ⟨e3, e4.le.trans (hok i).2⟩
  have k1 : ∀ x : Iv, ∀ j, j ≠ i → (b.set i x) j = b j := by
    intro x j hj; rw [Box.set, if_neg hj]
  have k2 : ∀ x : Iv, (b.set i x) i = x := by intro x; rw [Box.set, if_pos rfl]
  have all : ∀ c, c = b.set i ⟨mid, (b i).up⟩ ∨ c = b.set i ⟨(b i).lo, mid⟩ →
      (BoxOk c ∧ ∀ j, j ≠ i → c j = b j) ∧ (c i).lo.n ≤ max (b i).lo.n (b i).up.n + 1 ∧
      (c i).up.n ≤ max (b i).lo.n (b i).up.n + 1 := by
    intro c hc
    rcases hc with rfl | rfl
    · refine ⟨⟨o2, k1 _⟩, ?_⟩; rw [k2]; simp only; omega
    · refine ⟨⟨o1, k1 _⟩, ?_⟩; rw [k2]; simp only; omega
  have i2 : InBox p b → (mid.val : ℝ) ≤ p i → InBox p (b.set i ⟨mid, (b i).up⟩) :=
    fun hb hm => set_in p b i _ hb ⟨hm, (hb i).2⟩
  have i1 : InBox p b → p i ≤ (mid.val : ℝ) → InBox p (b.set i ⟨(b i).lo, mid⟩) :=
    fun hb hm => set_in p b i _ hb ⟨(hb i).1, hm⟩
  have lo1 : ∀ j, (b j).lo.val < 1 := fun j => lt_of_lt_of_le (hok j).1 (hok j).2
  have mid1 : mid.val < 1 := lt_of_lt_of_le e4 (hok i).2
  rw [splitAndPush, e1] at h
  simp only [Option.bind_eq_bind, Option.bind_some] at h
  cases g1 : ge (b i).lo mid with
  | none => simp [g1] at h
  | some c1 =>
  cases c1 with
  | true => simp [g1] at h
  | false =>
  cases g2 : ge mid (b i).up with
  | none => simp [g1, g2] at h
  | some c2 =>
  cases c2 with
  | true => simp [g1, g2] at h
  | false =>
  simp only [g1, g2, Option.bind_some, Bool.false_eq_true, if_false] at h
  by_cases hi0 : i = 0
  · rw [if_pos hi0] at h
    simp only [Option.pure_def, Option.some.injEq, Prod.mk.injEq, true_and] at h
    subst h
    have hm : ∀ c ∈ (if overlaps ⟨mid, (b i).up⟩ = true then [b.set i ⟨mid, (b i).up⟩] else []) ++
        (if overlaps ⟨(b i).lo, mid⟩ = true then [b.set i ⟨(b i).lo, mid⟩] else []),
        c = b.set i ⟨mid, (b i).up⟩ ∨ c = b.set i ⟨(b i).lo, mid⟩ := by
      intro c hc
      rcases List.mem_append.mp hc with hc | hc
      · left; split at hc <;> simp_all
      · right; split at hc <;> simp_all
    refine ⟨fun c hc => (all c (hm c hc)).1, fun c hc => (all c (hm c hc)).2, fun hb => ?_⟩
    have hb0 := hb i
    rcases le_total (mid.val : ℝ) (p i) with hc | hc
    · refine ⟨_, List.mem_append_left _ ?_, i2 hb hc⟩
      rw [if_pos (hov _ (by rw [← hi0]; exact hc) (by rw [← hi0]; exact hb0.2))]; simp
    · refine ⟨_, List.mem_append_right _ ?_, i1 hb hc⟩
      rw [if_pos (hov _ (by rw [← hi0]; exact hb0.1) (by rw [← hi0]; exact hc))]; simp
  · rw [if_neg hi0] at h
    cases vf with
    | false =>
      simp only [Bool.not_false, if_true, Option.pure_def, Option.some.injEq, Prod.mk.injEq,
        true_and] at h
      subst h
      have hm : ∀ c ∈ [b.set i ⟨mid, (b i).up⟩, b.set i ⟨(b i).lo, mid⟩],
          c = b.set i ⟨mid, (b i).up⟩ ∨ c = b.set i ⟨(b i).lo, mid⟩ := by simp
      refine ⟨fun c hc => (all c (hm c hc)).1, fun c hc => (all c (hm c hc)).2, fun hb => ?_⟩
      rcases le_total (mid.val : ℝ) (p i) with hc | hc
      · exact ⟨_, by simp, i2 hb hc⟩
      · exact ⟨_, by simp, i1 hb hc⟩
    | true =>
      simp only [Bool.not_true, Bool.false_eq_true, if_false] at h
      have hsum := hvf rfl
      have fin : ∀ c2 c1 : Bool, (InBox p b → (mid.val : ℝ) ≤ p i → c2 = true) →
          (InBox p b → p i ≤ (mid.val : ℝ) → c1 = true) →
          (false, (if c2 = true then [b.set i ⟨mid, (b i).up⟩] else []) ++
            (if c1 = true then [b.set i ⟨(b i).lo, mid⟩] else [])) = (false, pushed) →
          (∀ c ∈ pushed, BoxOk c ∧ ∀ j, j ≠ i → c j = b j) ∧
          (∀ c ∈ pushed, (c i).lo.n ≤ max (b i).lo.n (b i).up.n + 1 ∧
            (c i).up.n ≤ max (b i).lo.n (b i).up.n + 1) ∧
          (InBox p b → ∃ c ∈ pushed, InBox p c) := by
        intro c2 c1 t2 t1 he
        simp only [Prod.mk.injEq, true_and] at he
        subst he
        have hm : ∀ c ∈ (if c2 = true then [b.set i ⟨mid, (b i).up⟩] else []) ++
            (if c1 = true then [b.set i ⟨(b i).lo, mid⟩] else []),
            c = b.set i ⟨mid, (b i).up⟩ ∨ c = b.set i ⟨(b i).lo, mid⟩ := by
          intro c hc
          rcases List.mem_append.mp hc with hc | hc
          · left; split at hc <;> simp_all
          · right; split at hc <;> simp_all
        refine ⟨fun c hc => (all c (hm c hc)).1, fun c hc => (all c (hm c hc)).2, fun hb => ?_⟩
        rcases le_total (mid.val : ℝ) (p i) with hc | hc
        · refine ⟨_, List.mem_append_left _ ?_, i2 hb hc⟩
          rw [if_pos (t2 hb hc)]; simp
        · refine ⟨_, List.mem_append_right _ ?_, i1 hb hc⟩
          rw [if_pos (t1 hb hc)]; simp
      by_cases hi1 : i = 1
      · rw [if_pos hi1] at h
        cases s2 : isSumLeq1 mid (b 2).lo with
        | none => simp [s2] at h
        | some c2 =>
        cases s1 : isSumLeq1 (b i).lo (b 2).lo with
        | none => simp [s2, s1] at h
        | some c1 =>
        simp only [s1, s2, Option.bind_some, Option.pure_def, Option.some.injEq] at h
        refine fin c2 c1 (fun hb hc => ?_) (fun hb hc => ?_) h
        · apply isSum_true _ _ c2 mid1 (lo1 2) _ s2
          rw [hi1] at hc
          have := (hb 2).1
          exact_mod_cast (by linarith : (mid.val : ℝ) + (b 2).lo.val ≤ 1)
        · apply isSum_true _ _ c1 (lo1 i) (lo1 2) _ s1
          have h2 := (hb 2).1
          have h1 := (hb i).1
          rw [hi1] at h1 ⊢
          exact_mod_cast (by linarith : ((b 1).lo.val : ℝ) + (b 2).lo.val ≤ 1)
      · have hi2 : i = 2 := by omega
        rw [if_neg hi1] at h
        cases s2 : isSumLeq1 (b 1).lo mid with
        | none => simp [s2] at h
        | some c2 =>
        cases s1 : isSumLeq1 (b 1).lo (b i).lo with
        | none => simp [s2, s1] at h
        | some c1 =>
        simp only [s1, s2, Option.bind_some, Option.pure_def, Option.some.injEq] at h
        refine fin c2 c1 (fun hb hc => ?_) (fun hb hc => ?_) h
        · apply isSum_true _ _ c2 (lo1 1) mid1 _ s2
          rw [hi2] at hc
          have := (hb 1).1
          exact_mod_cast (by linarith : ((b 1).lo.val : ℝ) + mid.val ≤ 1)
        · apply isSum_true _ _ c1 (lo1 1) (lo1 i) _ s1
          have h2 := (hb 1).1
          have h1 := (hb i).1
          rw [hi2] at h1 ⊢
          exact_mod_cast (by linarith : ((b 1).lo.val : ℝ) + (b 2).lo.val ≤ 1)

private theorem ge_one (x : Num) (c : Bool) (hx : x.val < 1) (h : ge x ⟨1, 0⟩ = some c) :
    c = false := by
  by_cases hn : x.n < 64
  · rw [ge, lt_exact x ⟨1, 0⟩ hn (by decide)
      (by simp; rw [val_lt_one] at hx
          exact hx.trans (Nat.pow_lt_pow_right (by decide) hn))
      (by simp only [Nat.sub_zero, Nat.one_mul]
          exact Nat.pow_lt_pow_right (by decide) hn)] at h
    have h1 : (⟨1, 0⟩ : Num).val = 1 := by simp [Num.val]
    rw [h1] at h
    simp [hx] at h
    rw [← h]
  · exfalso
    rw [ge, lt, if_neg (by simp), if_pos (by simp only; omega), pow2, if_neg (by simp only; omega)] at h
    simp at h

private theorem dfs_loop (zeroIn done : Box → Bool) (pick : Box → Fin 3) (vf : Bool)
    (p : Fin 3 → ℝ) (hvf : vf = true → p 1 + p 2 ≤ 1)
    (hsound : ∀ b, InBox p b → zeroIn b = true) (fuel : Nat) (stack : List Box)
    (hok : ∀ b ∈ stack, BoxOk b) (hin : ∃ b ∈ stack, InBox p b) (toi : Option Num) :
    dfs zeroIn done pick vf fuel stack ≠ some (false, toi) := by
  induction fuel generalizing stack with
  | zero =>
    obtain ⟨b, hb, -⟩ := hin
    cases stack with
    | nil => simp at hb
    | cons a as => simp [dfs]
  | succ fuel ih =>
    cases stack with
    | nil => obtain ⟨b, hb, -⟩ := hin; simp at hb
    | cons a as =>
      intro h
      rw [dfs] at h
      cases hp : pop cmpTime (a :: as) with
      | none => simp [hp] at h
      | some q =>
      obtain ⟨cur, rest⟩ := q
      have hperm := pop_perm _ _ _ _ hp
      have hokc : BoxOk cur := hok cur (hperm.mem_iff.mp (by simp))
      have hokr : ∀ b ∈ rest, BoxOk b := fun b hb => hok b (hperm.mem_iff.mp (by simp [hb]))
      have hin' : InBox p cur ∨ ∃ b ∈ rest, InBox p b := by
        obtain ⟨b, hb, hbi⟩ := hin
        rcases List.mem_cons.mp (hperm.mem_iff.mpr hb) with rfl | hb
        · exact Or.inl hbi
        · exact Or.inr ⟨b, hb, hbi⟩
      simp only [hp, Option.bind_eq_bind, Option.bind_some] at h
      cases hg : ge (cur 0).lo ⟨1, 0⟩ with
      | none => simp [hg] at h
      | some c =>
      rw [ge_one _ c (lt_of_lt_of_le (hokc 0).1 (hokc 0).2) hg] at hg
      simp only [hg, Option.bind_some, Bool.false_eq_true, if_false] at h
      cases hev : evaluable cur with
      | false => simp [hev] at h
      | true =>
      cases hz : zeroIn cur with
      | false =>
        simp [hev, hz] at h
        refine ih rest hokr ?_ h
        rcases hin' with hc | hc
        · rw [hsound cur hc] at hz; cases hz
        · exact hc
      | true =>
      simp only [hev, hz, Bool.not_true, Bool.false_eq_true, if_false] at h
      cases hd : done cur with
      | true => simp [hd] at h
      | false =>
      simp only [hd, Bool.false_eq_true, if_false] at h
      cases hs : splitAndPush (fun _ => true) vf cur (pick cur) with
      | none => simp [hs] at h
      | some q =>
      obtain ⟨ovf, pushed⟩ := q
      simp only [hs, Option.bind_some] at h
      split at h
      · simp at h
      · rename_i hl
        cases ovf with
        | true => simp at h
        | false =>
          simp only [Bool.false_eq_true, if_false] at h
          rw [pushAll_spec pushed rest (by omega)] at h
          obtain ⟨r1, -, r2⟩ := split_spec (fun _ => true) vf cur (pick cur) p pushed hokc hev
            (fun _ _ _ => rfl) hvf hs
          refine ih (rest ++ pushed) ?_ ?_ h
          · intro b hb
            rcases List.mem_append.mp hb with hb | hb
            · exact hokr b hb
            · exact (r1 b hb).1
          · rcases hin' with hc | ⟨b, hb, hbi⟩
            · obtain ⟨c, hc1, hc2⟩ := r2 hc
              exact ⟨c, List.mem_append_right _ hc1, hc2⟩
            · exact ⟨b, List.mem_append_left _ hb, hbi⟩

private theorem unitBox_ok : BoxOk unitBox := by
  intro i; simp [unitBox, Num.val]

/-- C61 for the depth-first root finder: if the primitives touch at some parameters in the unit cube
(with `u + v ≤ 1` for vertex-face pairs), it never answers "no collision", whatever the order of
subdivision and the acceptance test, and however small its local stack. -/
theorem dfs_conservative (zeroIn done : Box → Bool) (pick : Box → Fin 3) (vf : Bool)
    (Root : (Fin 3 → ℝ) → Prop) (hsound : ∀ p b, Root p → InBox p b → zeroIn b = true)
    (p : Fin 3 → ℝ) (hp : Root p) (hcube : ∀ i, 0 ≤ p i ∧ p i ≤ 1)
    (hvf : vf = true → p 1 + p 2 ≤ 1) (fuel : Nat) (toi : Option Num) :
    dfs zeroIn done pick vf fuel [unitBox] ≠ some (false, toi) := by
  apply dfs_loop zeroIn done pick vf p hvf (fun b => hsound p b hp)
  · simpa using unitBox_ok
  · refine ⟨unitBox, by simp, fun i => ?_⟩
    simpa [unitBox, Num.val] using hcube i

example : ∃ p : Fin 3 → ℝ, (∀ i, 0 ≤ p i ∧ p i ≤ 1) ∧ p 1 + p 2 ≤ 1 ∧ p 0 = 1 / 2 :=
  ⟨fun i => if i = 0 then 1 / 2 else 1 / 4, by intro i; dsimp only; split <;> norm_num,
    by dsimp only; rw [if_neg (by decide), if_neg (by decide)]; norm_num, by simp⟩

private theorem bfs_skip (o : Oracle) (ov : Iv → Bool) (vf : Bool) (mi : Int) (fuel : Nat)
    (stack : List (Box × Int)) (st : BfsSt) (hs : st.useSkip = true) (toi : Option Num) :
    bfs o ov vf mi fuel stack st ≠ some (false, toi) := by
  induction fuel generalizing stack st with
  | zero => cases stack <;> simp [bfs, hs]
  | succ fuel ih =>
    cases stack with
    | nil => simp [bfs, hs]
    | cons a as =>
      rw [bfs]
      cases hp : pop horizCmp (a :: as) with
      | none => simp
      | some q =>
      obtain ⟨⟨cur, level⟩, rest⟩ := q
      simp only [Option.bind_eq_bind, Option.bind_some]
      cases hg : ge (cur 0).lo st.toiSkip with
      | none => simp
      | some c =>
      cases c with
      | true => simp only [Option.bind_some, if_true]; exact ih rest st hs
      | false =>
      simp only [Option.bind_some, Bool.false_eq_true, if_false]
      split
      · simp
      split
      · exact ih _ _ hs
      split
      · simp
      generalize hs3 : (if mi > 0 then ((st.enter level).noteTol (o.tolOk cur)).noteRoot level (cur 0).lo
        else (st.enter level).noteTol (o.tolOk cur)) = st3
      have h3 : st3.useSkip = true := by rw [← hs3]; split <;> exact hs
      split
      · simp
      split
      · cases lt (cur 0).lo st3.toiSkip with
        | none => simp
        | some c => simp only [Option.bind_some]; exact ih _ _ rfl
      · cases splitAndPush ov vf cur (o.pick cur) with
        | none => simp
        | some q =>
        obtain ⟨ovf, pushed⟩ := q
        simp only [Option.bind_some]
        split
        · simp
        split
        · simp
        exact ih _ _ h3

private theorem ge_four (x : Num) (c : Bool) (hx : x.val < 1) (hn : x.n ≤ 61)
    (h : ge x ⟨4, 0⟩ = some c) : c = false := by
  rw [ge, lt_exact x ⟨4, 0⟩ (by omega) (by decide)
    (by simp; rw [val_lt_one] at hx
        exact hx.trans (Nat.pow_lt_pow_right (show 1 < 2 by decide) (show x.n < 64 by omega)))
    (by simp only [Nat.sub_zero]
        have := Nat.pow_le_pow_right (show 0 < 2 by decide) hn
        omega)] at h
  have h1 : (⟨4, 0⟩ : Num).val = 4 := by simp [Num.val]
  rw [h1] at h
  have : x.val < 4 := by linarith
  simp [this] at h
  rw [← h]

private theorem bfs_loop (o : Oracle) (ov : Iv → Bool) (vf : Bool) (mi : Int)
    (p : Fin 3 → ℝ) (hvf : vf = true → p 1 + p 2 ≤ 1)
    (hsound : ∀ b, InBox p b → o.zeroIn b = true)
    (hov : ∀ x : Iv, (x.lo.val : ℝ) ≤ p 0 → p 0 ≤ (x.up.val : ℝ) → ov x = true)
    (hpick : ∀ b, o.pick b = 0 → (b 0).lo.n ≤ 60 ∧ (b 0).up.n ≤ 60)
    (fuel : Nat) (stack : List (Box × Int)) (st : BfsSt)
    (hok : ∀ b ∈ stack, BoxOk b.1) (hn : ∀ b ∈ stack, (b.1 0).lo.n ≤ 61 ∧ (b.1 0).up.n ≤ 61)
    (hin : ∃ b ∈ stack, InBox p b.1)
    (hst : st.useSkip = false → st.toiSkip = ⟨4, 0⟩) (toi : Option Num) :
    bfs o ov vf mi fuel stack st ≠ some (false, toi) := by
  induction fuel generalizing stack st with
  | zero =>
    obtain ⟨b, hb, -⟩ := hin
    cases stack with
    | nil => simp at hb
    | cons a as => simp [bfs]
  | succ fuel ih =>
    by_cases hus : st.useSkip = true
    · exact bfs_skip o ov vf mi _ _ st hus toi
    have hus : st.useSkip = false := by simpa using hus
    have hts := hst hus
    cases stack with
    | nil => obtain ⟨b, hb, -⟩ := hin; simp at hb
    | cons a as =>
      rw [bfs]
      cases hp : pop horizCmp (a :: as) with
      | none => simp
      | some q =>
      obtain ⟨⟨cur, level⟩, rest⟩ := q
      have hperm := pop_perm _ _ _ _ hp
      have hokc : BoxOk cur := hok (cur, level) (hperm.mem_iff.mp (by simp))
      have hnc := hn (cur, level) (hperm.mem_iff.mp (by simp))
      have hokr : ∀ b ∈ rest, BoxOk b.1 := fun b hb => hok b (hperm.mem_iff.mp (by simp [hb]))
      have hnr : ∀ b ∈ rest, (b.1 0).lo.n ≤ 61 ∧ (b.1 0).up.n ≤ 61 :=
        fun b hb => hn b (hperm.mem_iff.mp (by simp [hb]))
      have hin' : InBox p cur ∨ ∃ b ∈ rest, InBox p b.1 := by
        obtain ⟨b, hb, hbi⟩ := hin
        rcases List.mem_cons.mp (hperm.mem_iff.mpr hb) with rfl | hb
        · exact Or.inl hbi
        · exact Or.inr ⟨b, hb, hbi⟩
      simp only [Option.bind_eq_bind, Option.bind_some]
      rw [hts]
      cases hg : ge (cur 0).lo ⟨4, 0⟩ with
      | none => simp
      | some c =>
      rw [ge_four _ c (lt_of_lt_of_le (hokc 0).1 (hokc 0).2) hnc.1 hg]
      simp only [Option.bind_some, Bool.false_eq_true, if_false]
      split
      · simp
      rename_i hev
      have hev : evaluable cur = true := by simpa using hev
      split
      · rename_i hz
        refine ih rest _ hokr hnr ?_ (fun _ => hts)
        rcases hin' with hc | hc
        · rw [hsound cur hc] at hz; simp at hz
        · exact hc
      split
      · simp
      generalize hs3 : (if mi > 0 then ((st.enter level).noteTol (o.tolOk cur)).noteRoot level (cur 0).lo
        else (st.enter level).noteTol (o.tolOk cur)) = st3
      have h3 : st3.toiSkip = ⟨4, 0⟩ := by rw [← hs3]; split <;> exact hts
      split
      · simp
      split
      · cases lt (cur 0).lo st3.toiSkip with
        | none => simp
        | some c => simp only [Option.bind_some]; exact bfs_skip o ov vf mi _ _ _ rfl toi
      · cases hs : splitAndPush ov vf cur (o.pick cur) with
        | none => simp
        | some q =>
        obtain ⟨ovf, pushed⟩ := q
        simp only [Option.bind_some]
        split
        · simp
        rename_i hl
        split
        · simp
        rename_i hov'
        have hovf : ovf = false := by simpa using hov'
        subst hovf
        obtain ⟨r1, r3, r2⟩ := split_spec ov vf cur (o.pick cur) p pushed hokc hev hov hvf hs
        rw [pushAll_spec _ rest (by omega)]
        refine ih _ _ ?_ ?_ ?_ (fun _ => h3)
        · intro b hb
          rcases List.mem_append.mp hb with hb | hb
          · exact hokr b hb
          · obtain ⟨c, hc, rfl⟩ := List.mem_map.mp hb
            exact (r1 c hc).1
        · intro b hb
          rcases List.mem_append.mp hb with hb | hb
          · exact hnr b hb
          · obtain ⟨c, hc, rfl⟩ := List.mem_map.mp hb
            by_cases h0 : o.pick cur = 0
            · have := r3 c hc
              have hk := hpick cur h0
              rw [h0] at this
              simp only
              omega
            · have := (r1 c hc).2 0 (fun h => h0 h.symm)
              simp only [this]; exact hnc
        · rcases hin' with hc | ⟨b, hb, hbi⟩
          · obtain ⟨c, hc1, hc2⟩ := r2 hc
            exact ⟨(c, level + 1), List.mem_append_right _ (List.mem_map.mpr ⟨c, hc1, rfl⟩), hc2⟩
          · exact ⟨b, List.mem_append_left _ hb, hbi⟩

/-- C61 for the breadth-first root finder with upper time bound (`ov` accepts every interval meeting
the admissible time `p 0`) and iteration limit `mi`: a contact is never missed, as long as the time
interval is not subdivided below 2^-61 (below that its skip test overflows, `lt_overflow_violated`). -/
theorem bfs_conservative (o : Oracle) (ov : Iv → Bool) (vf : Bool) (mi : Int)
    (Root : (Fin 3 → ℝ) → Prop) (hsound : ∀ p b, Root p → InBox p b → o.zeroIn b = true)
    (hpick : ∀ b, o.pick b = 0 → (b 0).lo.n ≤ 60 ∧ (b 0).up.n ≤ 60)
    (p : Fin 3 → ℝ) (hp : Root p) (hcube : ∀ i, 0 ≤ p i ∧ p i ≤ 1)
    (hov : ∀ x : Iv, (x.lo.val : ℝ) ≤ p 0 → p 0 ≤ (x.up.val : ℝ) → ov x = true)
    (hvf : vf = true → p 1 + p 2 ≤ 1) (fuel : Nat) (toi : Option Num) :
    bfs o ov vf mi fuel [(unitBox, -1)] BfsSt.init ≠ some (false, toi) := by
  apply bfs_loop o ov vf mi p hvf (fun b => hsound p b hp) hov hpick
  · simpa using unitBox_ok
  · simp [unitBox]
  · refine ⟨(unitBox, -1), by simp, fun i => ?_⟩
    simpa [unitBox, Num.val] using hcube i
  · intro _; rfl

/-! ### The time reported at the iteration limit -/

/-- A bounding-box test that is sound for a contact at time 0: it accepts every box starting at time 0,
and also boxes with the full `u` range (the test is allowed to be too generous). -/
def lateZeroIn (b : Box) : Bool := decide ((b 0).lo.k = 0) || decide (b 1 = ⟨⟨0, 0⟩, ⟨1, 0⟩⟩)

/-- No box is small enough to stop. -/
def lateOracle : Oracle := ⟨lateZeroIn, fun _ => false, fun _ => false, fun _ => false, slidePick⟩

private theorem late_drop (fuel : Nat) (a : Box × Int) (as : List (Box × Int)) (st : BfsSt)
    (cur : Box) (level : Int) (rest : List (Box × Int))
    (hp : pop horizCmp (a :: as) = some ((cur, level), rest))
    (hg : ge (cur 0).lo st.toiSkip = some false) (he : evaluable cur = true)
    (hz : lateZeroIn cur = false) :
    bfs lateOracle (fun _ => true) false 4 (fuel + 1) (a :: as) st =
      bfs lateOracle (fun _ => true) false 4 fuel rest (st.enter level) := by
  rw [bfs, hp]
  simp only [Option.bind_eq_bind, Option.bind_some, hg]
  simp [he, lateOracle, hz]

private theorem late_split (fuel : Nat) (a : Box × Int) (as : List (Box × Int)) (st : BfsSt)
    (cur : Box) (level next : Int) (rest : List (Box × Int)) (pushed : List Box)
    (hp : pop horizCmp (a :: as) = some ((cur, level), rest))
    (hg : ge (cur 0).lo st.toiSkip = some false) (he : evaluable cur = true)
    (hz : lateZeroIn cur = true) (hr : st.refine + 1 ≤ 4 ∧ next = level + 1)
    (hs : splitAndPush (fun _ => true) false cur (slidePick cur) = some (false, pushed))
    (hl : (pushAll rest (pushed.map fun b => (b, next))).length ≤ 255) :
    bfs lateOracle (fun _ => true) false 4 (fuel + 1) (a :: as) st =
      bfs lateOracle (fun _ => true) false 4 fuel (pushAll rest (pushed.map fun b => (b, next)))
        (((st.enter level).noteTol false).noteRoot level (cur 0).lo) := by
  obtain ⟨hr, rfl⟩ := hr
  have h1 : ¬ (4 < st.refine + 1) := by omega
  have h2 : ¬ (255 < (pushAll rest (pushed.map fun b => (b, level + 1))).length) := by omega
  rw [bfs, hp]
  simp only [Option.bind_eq_bind, Option.bind_some, hg]
  simp [he, lateOracle, hz, BfsSt.noteTol, BfsSt.noteRoot, BfsSt.enter, h1, hs, h2]

private theorem late_stop (fuel : Nat) (a : Box × Int) (as : List (Box × Int)) (st : BfsSt)
    (cur : Box) (level : Int) (rest : List (Box × Int))
    (hp : pop horizCmp (a :: as) = some ((cur, level), rest))
    (hg : ge (cur 0).lo st.toiSkip = some false) (he : evaluable cur = true)
    (hz : lateZeroIn cur = true) (hr : 4 < st.refine + 1) :
    bfs lateOracle (fun _ => true) false 4 (fuel + 1) (a :: as) st =
      some (true, (((st.enter level).noteTol false).noteRoot level (cur 0).lo).tempToi) := by
  rw [bfs, hp]
  simp only [Option.bind_eq_bind, Option.bind_some, hg]
  simp [he, lateOracle, hz, BfsSt.noteTol, BfsSt.noteRoot, BfsSt.enter, hr]

/-- C20, violated for the breadth-first finder: although the test is sound for a contact at time 0, the
search stopped by its iteration limit reports time 1/2: the first box seen on a level is not the earliest one
of that level. -/
theorem bfs_reports_late_violated :
    (∀ p b, p 0 = 0 → InBox p b → lateZeroIn b = true) ∧
      bfs lateOracle (fun _ => true) false 4 10 [(unitBox, -1)] BfsSt.init =
        some (true, some ⟨1, 1⟩) := by
  refine ⟨fun p b hp hb => ?_, ?_⟩
  · have h := (hb 0).1
    rw [hp] at h
    have h1 : (b 0).lo.k = 0 := by
      have h2 : (b 0).lo.val ≤ 0 := by exact_mod_cast h
      unfold Num.val at h2
      by_contra hk
      have : (0 : ℚ) < ((b 0).lo.k : ℚ) / 2 ^ (b 0).lo.n := by positivity
      linarith
    simp [lateZeroIn, h1]
  · have p1 : slidePick unitBox = 0 := by decide
    have p2 : slidePick (unitBox.set 0 half2) = 1 := by decide
    have q1 : pop horizCmp [(unitBox, -1)] = some ((unitBox, -1), []) := rfl
    have q2 : pop horizCmp [(unitBox.set 0 half2, 0), (unitBox.set 0 half1, 0)]
        = some ((unitBox.set 0 half2, 0), [(unitBox.set 0 half1, 0)]) := rfl
    have q3 : pop horizCmp [(unitBox.set 0 half1, 0), ((unitBox.set 0 half2).set 1 half2, 1),
        ((unitBox.set 0 half2).set 1 half1, 1)] = some (((unitBox.set 0 half2).set 1 half2, 1),
          [(unitBox.set 0 half1, 0), ((unitBox.set 0 half2).set 1 half1, 1)]) := rfl
    have q4 : pop horizCmp [(unitBox.set 0 half1, 0), ((unitBox.set 0 half2).set 1 half1, 1)]
        = some (((unitBox.set 0 half2).set 1 half1, 1), [(unitBox.set 0 half1, 0)]) := rfl
    have q5 : pop horizCmp [(unitBox.set 0 half1, 0)] = some ((unitBox.set 0 half1, 0), []) := rfl
    rw [late_split 9 _ _ _ _ (-1) 0 _ _ q1 (by decide) (by decide) (by decide) (by decide)
      (by rw [p1]; exact split_t) (by decide)]
    change bfs lateOracle (fun _ => true) false 4 9
      [(unitBox.set 0 half2, 0), (unitBox.set 0 half1, 0)] _ = _
    rw [late_split 8 _ _ _ _ 0 1 _ _ q2 (by decide) (by decide) (by decide) (by decide)
      (by rw [p2]; exact split_u) (by decide)]
    change bfs lateOracle (fun _ => true) false 4 8
      [(unitBox.set 0 half1, 0), ((unitBox.set 0 half2).set 1 half2, 1),
        ((unitBox.set 0 half2).set 1 half1, 1)] _ = _
    rw [late_drop 7 _ _ _ _ 1 _ q3 (by decide) (by decide) (by decide),
      late_drop 6 _ _ _ _ 1 _ q4 (by decide) (by decide) (by decide),
      late_stop 5 _ _ _ _ 0 _ q5 (by decide) (by decide) (by decide) (by decide)]
    rfl

end Verif.NumCCD
