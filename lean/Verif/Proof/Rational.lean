import Verif.Model.Rational
import Mathlib.Tactic.Ring
import Mathlib.Tactic.Linarith
import Mathlib.Tactic.FieldSimp
import Mathlib.Data.Int.GCD
import Mathlib.RingTheory.Coprime.Lemmas
import Mathlib.Data.Rat.Lemmas
import Mathlib.Algebra.Order.Field.Basic
namespace Verif.Rational

theorem natAbs_gcd (u v : Int) : (gcd u v).natAbs = Int.gcd u v := by
  induction u, v using gcd.induct with
  | case1 u => rw [gcd]; simp
  | case2 u v h ih =>
    rw [gcd, dif_neg h, ih]
    rw [Int.gcd, Int.gcd, Int.natAbs_tmod, Nat.gcd_comm, ← Nat.gcd_rec, Nat.gcd_comm]

theorem gcd_zero (u : Int) : gcd u 0 = u := by rw [gcd]; simp

theorem gcd_step (u v : Int) (h : v ≠ 0) : gcd u v = gcd v (u.tmod v) := by rw [gcd, dif_neg h]

theorem gcd_dvd_left (u v : Int) : gcd u v ∣ u := by
  rw [← Int.natAbs_dvd, natAbs_gcd]; exact Int.gcd_dvd_left ..

theorem gcd_dvd_right (u v : Int) : gcd u v ∣ v := by
  rw [← Int.natAbs_dvd, natAbs_gcd]; exact Int.gcd_dvd_right ..

theorem gcd_eq_zero (u v : Int) : gcd u v = 0 ↔ u = 0 ∧ v = 0 := by
  rw [← Int.natAbs_eq_zero, natAbs_gcd, Int.gcd_eq_zero_iff]

theorem gcd_nonneg (u v : Int) (hu : 0 ≤ u) (hv : 0 ≤ v) : 0 ≤ gcd u v := by
  induction u, v using gcd.induct with
  | case1 u => rw [gcd]; simpa
  | case2 u v h ih =>
    rw [gcd, dif_neg h]
    exact ih hv (Int.tmod_nonneg _ hu)

theorem gcd_one (u : Int) : gcd u 1 = 1 := by
  rw [gcd, dif_neg (by decide), Int.tmod_one, gcd]; simp

theorem cdiv_some (a b : Int) (hb : b ≠ 0) : cdiv a b = some (a.tdiv b) := by simp [cdiv, hb]

theorem cmod_some (a b : Int) (hb : b ≠ 0) : cmod a b = some (a.tmod b) := by simp [cmod, hb]

theorem cdiv_of_dvd {a b : Int} (h : b ∣ a) (hb : b ≠ 0) : ∃ q, cdiv a b = some q ∧ a = b * q := by
  refine ⟨_, cdiv_some a b hb, ?_⟩
  exact (Int.mul_tdiv_cancel' h).symm

/-- Quotients by a gcd are coprime. -/
theorem coprime_of_gcd {a b g x y : Int} (hg : g.natAbs = Int.gcd a b) (h0 : g ≠ 0) (hx : a = g * x)
    (hy : b = g * y) : IsCoprime x y := by
  rw [Int.isCoprime_iff_gcd_eq_one]
  have h1 : Int.gcd a b = g.natAbs * Int.gcd x y := by
    rw [hx, hy, Int.gcd_mul_left]
  rw [← hg] at h1
  have : 0 < g.natAbs := by omega
  exact (Nat.eq_of_mul_eq_mul_left this (by omega : g.natAbs * 1 = g.natAbs * Int.gcd x y)).symm

/-- Lowest terms is preserved by adding over a common multiple of the denominators. -/
theorem add_coprime {a b c d g b1 d1 h n g' : Int} (hab : IsCoprime a b) (hcd : IsCoprime c d)
    (hb : b = g * b1) (hd : d = g * d1) (hbd : IsCoprime b1 d1)
    (hn : a * d1 + c * b1 = h * n) (hng : IsCoprime n g') :
    IsCoprime n (b1 * (g' * d1)) := by
  have hab1 : IsCoprime a b1 := by rw [hb] at hab; exact hab.of_mul_right_right
  have hcd1 : IsCoprime c d1 := by rw [hd] at hcd; exact hcd.of_mul_right_right
  have key : IsCoprime (a * d1 + c * b1) b1 := by
    rw [IsCoprime.add_mul_right_left_iff]
    exact hab1.mul_left hbd.symm
  have key2 : IsCoprime (a * d1 + c * b1) d1 := by
    rw [add_comm, IsCoprime.add_mul_right_left_iff]
    exact hcd1.mul_left hbd
  rw [hn] at key key2
  exact (key.of_mul_left_right).mul_right (hng.mul_right key2.of_mul_left_right)

theorem powRec_eq (base val : Int) (exp : Nat) : powRec base val exp = val * base ^ exp := by
  induction base, val, exp using powRec.induct with
  | case1 b v e h1 h2 ih =>
    rw [powRec, if_pos h1, if_pos h2, ih]
    obtain ⟨k, rfl⟩ : ∃ k, e = 2 * k + 1 := ⟨e / 2, by omega⟩
    rw [show (2 * k + 1) / 2 = k by omega, pow_succ, pow_mul, pow_two]; ring
  | case2 b v e h1 h2 ih =>
    rw [powRec, if_pos h1, if_neg h2, ih]
    obtain ⟨k, rfl⟩ : ∃ k, e = 2 * k := ⟨e / 2, by omega⟩
    rw [show (2 * k) / 2 = k by omega, pow_mul, pow_two]
  | case3 b v h1 => rw [powRec]; simp
  | case4 b v e h1 h2 =>
    rw [powRec, if_neg h1, if_neg h2, show e = 0 by omega]; simp

/-- The value denoted by a state of the continued fraction expansion. -/
def CF.value (c : CF) : ℚ := c.q + (c.r : ℚ) / c.d

theorem norm_spec (fuel : Nat) (c : CF) (hd : 0 < c.d) (hr : -c.d < c.r) (hr2 : c.r < c.d)
    (hf : 2 ≤ fuel) :
    ∃ c', norm fuel c = some c' ∧ c'.d = c.d ∧ 0 ≤ c'.r ∧ c'.r < c'.d ∧ c'.value = c.value := by
  obtain ⟨f, rfl⟩ : ∃ f, fuel = f + 2 := ⟨fuel - 2, by omega⟩
  by_cases h : c.r < 0
  · refine ⟨⟨c.d, c.q - 1, c.r + c.d⟩, ?_, rfl, by simp; omega, by simp; omega, ?_⟩
    · rw [norm, if_pos h, norm, if_neg (by simp; omega)]
    · have : (c.d : ℚ) ≠ 0 := by exact_mod_cast hd.ne'
      simp only [CF.value, Int.cast_sub, Int.cast_one, Int.cast_add]
      field_simp
      ring
  · exact ⟨c, by rw [norm, if_neg h], rfl, by omega, hr2, rfl⟩

theorem ltLoop_spec (fuel : Nat) (ts rs : CF) (rev : Bool) (h1 : 0 ≤ ts.r) (h2 : ts.r < ts.d)
    (h3 : 0 ≤ rs.r) (h4 : rs.r < rs.d) (hf : ts.r < fuel) :
    ltLoop fuel ts rs rev
      = some (if rev then decide (rs.value < ts.value) else decide (ts.value < rs.value)) := by
  induction fuel generalizing ts rs rev with
  | zero => simp at hf; omega
  | succ fuel ih =>
    have td : (0 : ℚ) < ts.d := by exact_mod_cast (by omega : 0 < ts.d)
    have rd : (0 : ℚ) < rs.d := by exact_mod_cast (by omega : 0 < rs.d)
    have tr0 : (0 : ℚ) ≤ (ts.r : ℚ) / ts.d := div_nonneg (by exact_mod_cast h1) td.le
    have tr1 : (ts.r : ℚ) / ts.d < 1 := by rw [div_lt_one td]; exact_mod_cast h2
    have rr0 : (0 : ℚ) ≤ (rs.r : ℚ) / rs.d := div_nonneg (by exact_mod_cast h3) rd.le
    have rr1 : (rs.r : ℚ) / rs.d < 1 := by rw [div_lt_one rd]; exact_mod_cast h4
    rw [ltLoop]
    by_cases hq : ts.q = rs.q
    · rw [if_neg (by simpa using hq)]
      have hv : (ts.value < rs.value ↔ (ts.r : ℚ) / ts.d < (rs.r : ℚ) / rs.d) := by
        simp [CF.value, hq]
      have hv' : (rs.value < ts.value ↔ (rs.r : ℚ) / rs.d < (ts.r : ℚ) / ts.d) := by
        simp [CF.value, hq]
      by_cases hz : ts.r = 0 ∨ rs.r = 0
      · simp only [hz, if_true]
        by_cases he : ts.r = rs.r
        · have : ts.r = 0 ∧ rs.r = 0 := by omega
          rw [if_pos he]
          simp [hv, hv', this]
        · rw [if_neg he]
          rcases hz with hz | hz
          · have : (0 : ℚ) < (rs.r : ℚ) / rs.d :=
              div_pos (by exact_mod_cast (by omega : 0 < rs.r)) rd
            cases rev <;> simp [hv, hv', hz, this, rr0]
          · have : (0 : ℚ) < (ts.r : ℚ) / ts.d :=
              div_pos (by exact_mod_cast (by omega : 0 < ts.r)) td
            have h0 : ts.r ≠ 0 := by omega
            cases rev <;> simp [hv, hv', hz, this, tr0, h0]
      · have t0 : 0 < ts.r := by omega
        have r0 : 0 < rs.r := by omega
        have t0' : (0 : ℚ) < ts.r := by exact_mod_cast t0
        have r0' : (0 : ℚ) < rs.r := by exact_mod_cast r0
        simp only [hz, if_false]
        rw [cdiv_some _ _ t0.ne', cmod_some _ _ t0.ne', cdiv_some _ _ r0.ne', cmod_some _ _ r0.ne']
        simp only [Option.bind_eq_bind, Option.bind_some]
        have a1 := Int.tmod_nonneg ts.r (show 0 ≤ ts.d by omega)
        have a2 := Int.tmod_lt_of_pos ts.d t0
        have a3 := Int.tmod_nonneg rs.r (show 0 ≤ rs.d by omega)
        have a4 := Int.tmod_lt_of_pos rs.d r0
        have b1 : (⟨ts.r, ts.d.tdiv ts.r, ts.d.tmod ts.r⟩ : CF).value = (ts.d : ℚ) / ts.r := by
          have e : ((ts.r * ts.d.tdiv ts.r + ts.d.tmod ts.r : Int) : ℚ) = ts.d := by
            rw [Int.mul_tdiv_add_tmod]
          push_cast at e
          simp only [CF.value]
          field_simp
          linarith
        have b2 : (⟨rs.r, rs.d.tdiv rs.r, rs.d.tmod rs.r⟩ : CF).value = (rs.d : ℚ) / rs.r := by
          have e : ((rs.r * rs.d.tdiv rs.r + rs.d.tmod rs.r : Int) : ℚ) = rs.d := by
            rw [Int.mul_tdiv_add_tmod]
          push_cast at e
          simp only [CF.value]
          field_simp
          linarith
        rw [ih _ _ _ a1 a2 a3 a4 (by simp only; push_cast at hf; omega), b1, b2]
        have k1 : ((ts.d : ℚ) / ts.r < rs.d / rs.r ↔ (rs.r : ℚ) / rs.d < ts.r / ts.d) := by
          rw [div_lt_div_iff₀ t0' r0', div_lt_div_iff₀ rd td, mul_comm, mul_comm (rs.d : ℚ)]
        have k2 : ((rs.d : ℚ) / rs.r < ts.d / ts.r ↔ (ts.r : ℚ) / ts.d < rs.r / rs.d) := by
          rw [div_lt_div_iff₀ r0' t0', div_lt_div_iff₀ td rd, mul_comm, mul_comm (ts.d : ℚ)]
        cases rev <;> simp [hv, hv', k1, k2]
    · rw [if_pos hq]
      have l1 : (ts.q < rs.q ↔ ts.value < rs.value) := by
        constructor
        · intro h
          have : (ts.q : ℚ) + 1 ≤ rs.q := by exact_mod_cast h
          simp only [CF.value]; linarith
        · intro h
          by_contra hc
          have : (rs.q : ℚ) + 1 ≤ ts.q := by exact_mod_cast (by omega : rs.q + 1 ≤ ts.q)
          simp only [CF.value] at h; linarith
      have l2 : (ts.q > rs.q ↔ rs.value < ts.value) := by
        constructor
        · intro h
          have : (rs.q : ℚ) + 1 ≤ ts.q := by exact_mod_cast h
          simp only [CF.value]; linarith
        · intro h
          by_contra hc
          have : (ts.q : ℚ) + 1 ≤ rs.q := by exact_mod_cast (by omega : ts.q + 1 ≤ rs.q)
          simp only [CF.value] at h; linarith
      cases rev <;> simp [l1, l2]

end Verif.Rational
