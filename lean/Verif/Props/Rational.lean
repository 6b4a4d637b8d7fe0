import Verif.Proof.Rational
import Mathlib.Data.Sign.Defs
import Mathlib.Tactic.NormNum
/-! # C15-C18: integer helpers and `rational` -/
namespace Verif.Rational

/-! ### C15 -/

/-- C15: `gcd(u,v)` is a greatest common divisor in the divisibility order. -/
theorem gcd_spec (u v : Int) :
    gcd u v ∣ u ∧ gcd u v ∣ v ∧ ∀ d, d ∣ u → d ∣ v → d ∣ gcd u v := by
  refine ⟨gcd_dvd_left u v, gcd_dvd_right u v, fun d h1 h2 => ?_⟩
  rw [← Int.dvd_natAbs, natAbs_gcd]
  exact Int.dvd_coe_gcd h1 h2

example : gcd (-12) 36 = -12 ∧ gcd 84 36 = 12 := by
  constructor <;> simp [gcd_step, gcd_zero]

/-- C15: unless both arguments are 0, `lcm` is defined, satisfies `lcm*gcd = u*v`, is a common
multiple and divides every common multiple. -/
theorem lcm_spec (u v : Int) (h : u ≠ 0 ∨ v ≠ 0) :
    ∃ l, lcm u v = some l ∧ l * gcd u v = u * v ∧ u ∣ l ∧ v ∣ l ∧ ∀ m, u ∣ m → v ∣ m → l ∣ m := by
  have h0 : gcd u v ≠ 0 := by rw [Ne, gcd_eq_zero]; omega
  obtain ⟨a, ha, hu⟩ := cdiv_of_dvd (gcd_dvd_left u v) h0
  obtain ⟨b, hv⟩ := gcd_dvd_right u v
  have hc := coprime_of_gcd (natAbs_gcd u v) h0 hu hv
  have hl : lcm u v = some (a * v) := by simp [lcm, ha]
  generalize gcd u v = g at *
  refine ⟨a * v, hl, ?_, ⟨b, ?_⟩, Dvd.intro_left _ rfl, ?_⟩
  · rw [hu]; ring
  · rw [hu, hv]; ring
  · rintro m ⟨x, hx⟩ ⟨y, hy⟩
    have e : a * x = b * y := by
      have : g * (a * x) = g * (b * y) := by
        rw [← mul_assoc, ← mul_assoc, ← hu, ← hv, ← hx, ← hy]
      exact mul_left_cancel₀ h0 this
    have : a ∣ y := hc.dvd_of_dvd_mul_left (Dvd.intro _ e)
    obtain ⟨z, rfl⟩ := this
    exact ⟨z, by rw [hy]; ring⟩

example : lcm (-4) 6 = some (-12) := by simp [lcm, gcd_step, gcd_zero, cdiv]

/-- C15, violated at the origin: `lcm(0,0)` divides by zero. -/
theorem lcm_zero_violated : lcm 0 0 = none := by simp [lcm, gcd_zero, cdiv]

/-- C15: `pow_integral(b,e) = b^e` for every non-negative exponent below the maximum of the exponent
type. -/
theorem powIntegral_spec (maxExp inf base : Int) (e : Nat) (he : (e : Int) < maxExp) :
    powIntegral maxExp inf base e = base ^ e := by
  rw [powIntegral]
  by_cases h3 : e = 3
  · subst h3; simp; ring
  by_cases h2 : e = 2
  · subst h2; simp; ring
  by_cases h1 : e = 1
  · subst h1; simp
  by_cases h0 : e = 0
  · subst h0; simp
  rw [if_neg (by omega), if_neg (by omega), if_neg (by omega), if_neg (by omega), if_neg (by omega),
    if_neg (by omega), powRec_eq]
  simp

example : powIntegral 127 0 3 13 = 1594323 := powIntegral_spec 127 0 3 13 (by decide)

/-- C15, violated at the largest exponent (`inf` is 0 for integral result types): 1^127 is not 1 when
the exponent type is 8 bits wide. -/
theorem powIntegral_max_violated : powIntegral 127 0 1 127 ≠ 1 ^ 127 := by
  simp [powIntegral]

/-! ### C16: exactness.  `val` is the rational number denoted by a numerator/denominator pair. -/

/-- The number denoted by a pair. -/
def val (x : Q) : ℚ := (x.num : ℚ) / x.den

private theorem val_eq {x : Q} {a b : Int} (hx : x.den ≠ 0) (hb : b ≠ 0) (h : x.num * b = a * x.den) :
    val x = (a : ℚ) / b := by
  have h1 : (x.den : ℚ) ≠ 0 := by exact_mod_cast hx
  have h2 : (b : ℚ) ≠ 0 := by exact_mod_cast hb
  rw [val, div_eq_div_iff h1 h2]
  exact_mod_cast h

/-- Shape of the result of `+` and `-` (shared argument). -/
private theorem addLike (a b c d : Int) (hb : b ≠ 0) (hd : d ≠ 0) :
    ∃ g b1 d1 h n g', gcd b d = g ∧ g ≠ 0 ∧ b = g * b1 ∧ d = g * d1 ∧ IsCoprime b1 d1 ∧
      cdiv b g = some b1 ∧ cdiv d g = some d1 ∧ gcd (a * d1 + c * b1) g = h ∧ h ≠ 0 ∧
      a * d1 + c * b1 = h * n ∧ g = h * g' ∧ IsCoprime n g' ∧
      cdiv (a * d1 + c * b1) h = some n ∧ cdiv d h = some (g' * d1) ∧ b1 ≠ 0 ∧ d1 ≠ 0 ∧ g' ≠ 0 := by
  have hg : gcd b d ≠ 0 := by rw [Ne, gcd_eq_zero]; tauto
  obtain ⟨b1, e1, f1⟩ := cdiv_of_dvd (gcd_dvd_left b d) hg
  obtain ⟨d1, e2, f2⟩ := cdiv_of_dvd (gcd_dvd_right b d) hg
  have hc := coprime_of_gcd (natAbs_gcd b d) hg f1 f2
  generalize gcd b d = g at *
  have hh : gcd (a * d1 + c * b1) g ≠ 0 := by rw [Ne, gcd_eq_zero]; tauto
  obtain ⟨n, e3, f3⟩ := cdiv_of_dvd (gcd_dvd_left (a * d1 + c * b1) g) hh
  obtain ⟨g', f4⟩ := gcd_dvd_right (a * d1 + c * b1) g
  have hc2 := coprime_of_gcd (natAbs_gcd _ _) hh f3 f4
  refine ⟨g, b1, d1, _, n, g', rfl, hg, f1, f2, hc, e1, e2, rfl, hh, f3, f4, hc2, e3, ?_, ?_, ?_, ?_⟩
  · generalize gcd (a * d1 + c * b1) g = h at *
    rw [cdiv_some _ _ hh, f2, f4, mul_assoc, Int.mul_tdiv_cancel_left _ hh]
  · rintro rfl; simp at f1; exact hb f1
  · rintro rfl; simp at f2; exact hd f2
  · rintro rfl; simp at f4; exact hg f4

private theorem sub_eq_add (x y : Q) : sub x y = add x ⟨-y.num, y.den⟩ := by
  simp only [sub, add, Int.neg_mul, Int.sub_eq_add_neg]

/-- C16: addition is exact and never divides by zero. -/
theorem add_exact (x y : Q) (hx : x.den ≠ 0) (hy : y.den ≠ 0) :
    ∃ z, add x y = some z ∧ z.den ≠ 0 ∧ val z = val x + val y := by
  obtain ⟨g, b1, d1, h, n, g', e1, hg, f1, f2, -, e2, e3, e4, hh, f3, f4, -, e5, e6, h1, h2, h3⟩ :=
    addLike x.num x.den y.num y.den hx hy
  refine ⟨⟨n, b1 * (g' * d1)⟩, ?_, ?_, ?_⟩
  · simp [add, e1, e2, e3, e4, e5, e6]
  · exact mul_ne_zero h1 (mul_ne_zero h3 h2)
  · have hxq : (x.den : ℚ) ≠ 0 := by exact_mod_cast hx
    have hyq : (y.den : ℚ) ≠ 0 := by exact_mod_cast hy
    have : val x + val y = ((x.num * y.den + y.num * x.den : Int) : ℚ) / (x.den * y.den : Int) := by
      rw [val, val]; push_cast; field_simp
    rw [this]
    apply val_eq (mul_ne_zero h1 (mul_ne_zero h3 h2)) (mul_ne_zero hx hy)
    simp only
    rw [f1, f2]
    have : x.num * (g * d1) + y.num * (g * b1) = g * (h * n) := by rw [← f3]; ring
    rw [this, f4]; ring

example : add ⟨1, 6⟩ ⟨3, 10⟩ = some ⟨7, 15⟩ := by simp [add, gcd_step, gcd_zero, cdiv]

/-- C16: subtraction is exact. -/
theorem sub_exact (x y : Q) (hx : x.den ≠ 0) (hy : y.den ≠ 0) :
    ∃ z, sub x y = some z ∧ z.den ≠ 0 ∧ val z = val x - val y := by
  rw [sub_eq_add]
  obtain ⟨z, h1, h2, h3⟩ := add_exact x ⟨-y.num, y.den⟩ hx hy
  refine ⟨z, h1, h2, ?_⟩
  rw [h3]; simp only [val]; push_cast; ring

/-- C16: multiplication is exact. -/
theorem mul_exact (x y : Q) (hx : x.den ≠ 0) (hy : y.den ≠ 0) :
    ∃ z, mul x y = some z ∧ z.den ≠ 0 ∧ val z = val x * val y := by
  have h1 : gcd x.num y.den ≠ 0 := by rw [Ne, gcd_eq_zero]; tauto
  have h2 : gcd y.num x.den ≠ 0 := by rw [Ne, gcd_eq_zero]; tauto
  obtain ⟨a, e1, f1⟩ := cdiv_of_dvd (gcd_dvd_left x.num y.den) h1
  obtain ⟨d, e2, f2⟩ := cdiv_of_dvd (gcd_dvd_right x.num y.den) h1
  obtain ⟨c, e3, f3⟩ := cdiv_of_dvd (gcd_dvd_left y.num x.den) h2
  obtain ⟨b, e4, f4⟩ := cdiv_of_dvd (gcd_dvd_right y.num x.den) h2
  have hz : b * d ≠ 0 := by
    apply mul_ne_zero
    · rintro rfl; simp at f4; exact hx f4
    · rintro rfl; simp at f2; exact hy f2
  refine ⟨⟨a * c, b * d⟩, by simp [mul, e1, e2, e3, e4], hz, ?_⟩
  have : val x * val y = ((x.num * y.num : Int) : ℚ) / (x.den * y.den : Int) := by
    rw [val, val]; push_cast; rw [div_mul_div_comm]
  rw [this]
  apply val_eq hz (mul_ne_zero hx hy)
  simp only
  generalize gcd x.num y.den = g1 at *
  generalize gcd y.num x.den = g2 at *
  rw [f1, f2, f3, f4]; ring

/-- C16: division by a non-zero value is exact. -/
theorem div_exact (x y : Q) (hx : x.den ≠ 0) (_hy : y.den ≠ 0) (hn : y.num ≠ 0) :
    ∃ z, div x y = some z ∧ z.den ≠ 0 ∧ val z = val x / val y := by
  rw [div]
  by_cases h0 : x.num = 0
  · exact ⟨x, by simp [h0], hx, by simp [val, h0]⟩
  rw [if_neg h0]
  have h1 : gcd x.num y.num ≠ 0 := by rw [Ne, gcd_eq_zero]; tauto
  have h2 : gcd y.den x.den ≠ 0 := by rw [Ne, gcd_eq_zero]; tauto
  obtain ⟨a, e1, f1⟩ := cdiv_of_dvd (gcd_dvd_left x.num y.num) h1
  obtain ⟨c, e2, f2⟩ := cdiv_of_dvd (gcd_dvd_right x.num y.num) h1
  obtain ⟨d, e3, f3⟩ := cdiv_of_dvd (gcd_dvd_left y.den x.den) h2
  obtain ⟨b, e4, f4⟩ := cdiv_of_dvd (gcd_dvd_right y.den x.den) h2
  have hz : b * c ≠ 0 := by
    apply mul_ne_zero
    · rintro rfl; simp at f4; exact hx f4
    · rintro rfl; simp at f2; exact hn f2
  have hv : val ⟨a * d, b * c⟩ = val x / val y := by
    have : val x / val y = ((x.num * y.den : Int) : ℚ) / (x.den * y.num : Int) := by
      rw [val, val]; push_cast; rw [div_div_div_eq]
    rw [this]
    apply val_eq hz (mul_ne_zero hx hn)
    simp only
    generalize gcd x.num y.num = g1 at *
    generalize gcd y.den x.den = g2 at *
    rw [f1, f2, f3, f4]; ring
  by_cases hs : b * c < 0
  · refine ⟨⟨-(a * d), -(b * c)⟩, by simp [e1, e2, e3, e4, hs], by simpa using hz, ?_⟩
    rw [← hv]; simp only [val]; push_cast; rw [neg_div_neg_eq]
  · exact ⟨⟨a * d, b * c⟩, by simp [e1, e2, e3, e4, hs], hz, hv⟩

/-- Lowest terms, positive denominator. -/
def Canonical (x : Q) : Prop := 0 < x.den ∧ IsCoprime x.num x.den

/-- C16/C17: the constructor from a numerator and non-zero denominator yields the canonical pair of
the quotient. -/
theorem mk_spec (n d : Int) (hd : d ≠ 0) :
    ∃ z, mk n d = some z ∧ Canonical z ∧ val z = (n : ℚ) / d := by
  rw [mk, canonicalize, if_neg hd]
  by_cases h0 : n = 0
  · exact ⟨⟨0, 1⟩, by simp [h0], ⟨by decide, isCoprime_one_right⟩, by simp [val, h0]⟩
  rw [if_neg h0]
  have h1 : gcd n d ≠ 0 := by rw [Ne, gcd_eq_zero]; tauto
  obtain ⟨a, e1, f1⟩ := cdiv_of_dvd (gcd_dvd_left n d) h1
  obtain ⟨b, e2, f2⟩ := cdiv_of_dvd (gcd_dvd_right n d) h1
  have hc := coprime_of_gcd (natAbs_gcd n d) h1 f1 f2
  have hb : b ≠ 0 := by rintro rfl; simp at f2; exact hd f2
  have hv : val ⟨a, b⟩ = (n : ℚ) / d := by
    apply val_eq hb hd
    simp only
    generalize gcd n d = g at *
    rw [f1, f2]; ring
  by_cases hs : b < 0
  · refine ⟨⟨-a, -b⟩, by simp [e1, e2, hs], ⟨by simpa using hs, hc.neg_neg⟩, ?_⟩
    rw [← hv]; simp only [val]; push_cast; rw [neg_div_neg_eq]
  · exact ⟨⟨a, b⟩, by simp [e1, e2, hs], ⟨by simp only; omega, hc⟩, hv⟩

example : mk 6 (-4) = some ⟨-3, 2⟩ := by simp [mk, canonicalize, gcd_step, gcd_zero, cdiv]

/-- C16/C17: unary minus is exact and canonical. -/
theorem neg_exact (x : Q) (hx : x.den ≠ 0) :
    ∃ z, neg x = some z ∧ Canonical z ∧ val z = - val x := by
  obtain ⟨z, h1, h2, h3⟩ := mk_spec (-x.num) x.den hx
  exact ⟨z, h1, h2, by rw [h3, val]; push_cast; ring⟩

/-! ### C17: canonical form -/

/-- C17: on canonical pairs `==` is equality of values. -/
theorem eq_spec (x y : Q) (hx : Canonical x) (hy : Canonical y) : eq x y = true ↔ val x = val y := by
  have cx : Nat.Coprime x.num.natAbs x.den.natAbs := Int.isCoprime_iff_gcd_eq_one.mp hx.2
  have cy : Nat.Coprime y.num.natAbs y.den.natAbs := Int.isCoprime_iff_gcd_eq_one.mp hy.2
  constructor
  · intro h
    simp only [eq, Bool.and_eq_true, beq_iff_eq] at h
    rw [val, val, h.1, h.2]
  · intro h
    have := Rat.div_int_inj hx.1 hy.1 cx cy h
    simp [eq, this]

/-- C17: for positive denominators the sign query is the sign of the value. -/
theorem getSign_spec (x : Q) (hx : 0 < x.den) : getSign x = SignType.sign (val x) := by
  have hd : (0 : ℚ) < x.den := by exact_mod_cast hx
  rw [getSign]
  rcases lt_trichotomy x.num 0 with h | h | h
  · have : val x < 0 := div_neg_of_neg_of_pos (by exact_mod_cast h) hd
    rw [if_neg (by omega), if_pos h, sign_neg this]; rfl
  · simp [h, val]
  · have : 0 < val x := div_pos (by exact_mod_cast h) hd
    rw [if_pos h, sign_pos this]; rfl

/-- C17: division of canonical pairs stays canonical. -/
theorem div_canonical (x y : Q) (hx : Canonical x) (hy : Canonical y) (hn : y.num ≠ 0) :
    ∃ z, div x y = some z ∧ Canonical z := by
  rw [div]
  by_cases h0 : x.num = 0
  · exact ⟨x, by simp [h0], hx⟩
  rw [if_neg h0]
  have h1 : gcd x.num y.num ≠ 0 := by rw [Ne, gcd_eq_zero]; tauto
  have h2 : gcd y.den x.den ≠ 0 := by rw [Ne, gcd_eq_zero]; have := hx.1; omega
  obtain ⟨a, e1, f1⟩ := cdiv_of_dvd (gcd_dvd_left x.num y.num) h1
  obtain ⟨c, e2, f2⟩ := cdiv_of_dvd (gcd_dvd_right x.num y.num) h1
  obtain ⟨d, e3, f3⟩ := cdiv_of_dvd (gcd_dvd_left y.den x.den) h2
  obtain ⟨b, e4, f4⟩ := cdiv_of_dvd (gcd_dvd_right y.den x.den) h2
  have hac := coprime_of_gcd (natAbs_gcd _ _) h1 f1 f2
  have hdb := coprime_of_gcd (natAbs_gcd _ _) h2 f3 f4
  have hz : b * c ≠ 0 := by
    apply mul_ne_zero
    · rintro rfl; simp at f4; have := hx.1; omega
    · rintro rfl; simp at f2; exact hn f2
  have hx2 := hx.2
  have hy2 := hy.2
  generalize gcd x.num y.num = g1 at *
  generalize gcd y.den x.den = g2 at *
  rw [f1, f4] at hx2
  rw [f2, f3] at hy2
  have hcop : IsCoprime (a * d) (b * c) := by
    apply IsCoprime.mul_left
    · exact (hx2.of_mul_left_right.of_mul_right_right).mul_right hac
    · exact hdb.mul_right (hy2.of_mul_left_right.of_mul_right_right).symm
  by_cases hs : b * c < 0
  · exact ⟨⟨-(a * d), -(b * c)⟩, by simp [e1, e2, e3, e4, hs], by simpa using hs, hcop.neg_neg⟩
  · exact ⟨⟨a * d, b * c⟩, by simp [e1, e2, e3, e4, hs], by simp only; omega, hcop⟩

/-- C17 (partial): a sum of canonical pairs is in lowest terms, and its denominator is positive when
the sum is not negative or the denominators are coprime.  Missing: a positive denominator in the
remaining cases, where it fails (`add_canonical_violated`). -/
theorem add_canonical_partial (x y : Q) (hx : Canonical x) (hy : Canonical y) :
    ∃ z, add x y = some z ∧ IsCoprime z.num z.den ∧
      (0 ≤ val x + val y ∨ IsCoprime x.den y.den → Canonical z) := by
  have hxd : x.den ≠ 0 := hx.1.ne'
  have hyd : y.den ≠ 0 := hy.1.ne'
  obtain ⟨g, b1, d1, h, n, g', e1, hg, f1, f2, hc, e2, e3, e4, hh, f3, f4, hng, e5, e6, h1, h2, h3⟩ :=
    addLike x.num x.den y.num y.den hxd hyd
  have hcop : IsCoprime n (b1 * (g' * d1)) := add_coprime hx.2 hy.2 f1 f2 hc f3 hng
  refine ⟨⟨n, b1 * (g' * d1)⟩, by simp [add, e1, e2, e3, e4, e5, e6], hcop, ?_⟩
  intro hs
  have g0 : 0 < g := by
    have := gcd_nonneg x.den y.den hx.1.le hy.1.le
    omega
  have b0 : 0 < b1 := by
    have := hx.1; rw [f1] at this; exact (mul_pos_iff_of_pos_left g0).mp this
  have d0 : 0 < d1 := by
    have := hy.1; rw [f2] at this; exact (mul_pos_iff_of_pos_left g0).mp this
  have hp : 0 < h := by
    rcases hs with hs | hs
    · have : 0 ≤ x.num * d1 + y.num * b1 := by
        have hxq : (0 : ℚ) < x.den := by exact_mod_cast hx.1
        have hyq : (0 : ℚ) < y.den := by exact_mod_cast hy.1
        rw [val, val, div_add_div _ _ hxq.ne' hyq.ne'] at hs
        have h5 : (0 : ℚ) ≤ x.num * y.den + x.den * y.num := by
          by_contra hneg
          exact absurd hs (not_le.mpr (div_neg_of_neg_of_pos (not_le.mp hneg) (mul_pos hxq hyq)))
        have h6 : 0 ≤ x.num * y.den + x.den * y.num := by exact_mod_cast h5
        rw [f1, f2] at h6
        have h7 : x.num * (g * d1) + g * b1 * y.num = g * (x.num * d1 + y.num * b1) := by ring
        rw [h7] at h6
        exact nonneg_of_mul_nonneg_right h6 g0
      have := gcd_nonneg _ g this g0.le
      omega
    · have : g = 1 := by
        have h8 := natAbs_gcd x.den y.den
        rw [Int.isCoprime_iff_gcd_eq_one.mp hs, e1] at h8
        omega
      rw [this, gcd_one] at e4
      omega
  have g0' : 0 < g' := by
    rw [f4] at g0; exact (mul_pos_iff_of_pos_left hp).mp g0
  exact ⟨mul_pos b0 (mul_pos g0' d0), hcop⟩

/-- C17 (partial): the same for differences. -/
theorem sub_canonical_partial (x y : Q) (hx : Canonical x) (hy : Canonical y) :
    ∃ z, sub x y = some z ∧ IsCoprime z.num z.den ∧
      (0 ≤ val x - val y ∨ IsCoprime x.den y.den → Canonical z) := by
  rw [sub_eq_add]
  obtain ⟨z, h1, h2, h3⟩ := add_canonical_partial x ⟨-y.num, y.den⟩ hx ⟨hy.1, hy.2.neg_left⟩
  refine ⟨z, h1, h2, fun h => h3 ?_⟩
  have : val ⟨-y.num, y.den⟩ = - val y := by simp only [val]; push_cast; ring
  rw [this, ← sub_eq_add_neg]
  exact h

/-- C17 (partial): a product of canonical pairs is in lowest terms, and canonical when neither factor
is negative. -/
theorem mul_canonical_partial (x y : Q) (hx : Canonical x) (hy : Canonical y) :
    ∃ z, mul x y = some z ∧ IsCoprime z.num z.den ∧ (0 ≤ x.num → 0 ≤ y.num → Canonical z) := by
  have h1 : gcd x.num y.den ≠ 0 := by rw [Ne, gcd_eq_zero]; have := hy.1; omega
  have h2 : gcd y.num x.den ≠ 0 := by rw [Ne, gcd_eq_zero]; have := hx.1; omega
  obtain ⟨a, e1, f1⟩ := cdiv_of_dvd (gcd_dvd_left x.num y.den) h1
  obtain ⟨d, e2, f2⟩ := cdiv_of_dvd (gcd_dvd_right x.num y.den) h1
  obtain ⟨c, e3, f3⟩ := cdiv_of_dvd (gcd_dvd_left y.num x.den) h2
  obtain ⟨b, e4, f4⟩ := cdiv_of_dvd (gcd_dvd_right y.num x.den) h2
  have hm : mul x y = some ⟨a * c, b * d⟩ := by simp [mul, e1, e2, e3, e4]
  have had := coprime_of_gcd (natAbs_gcd _ _) h1 f1 f2
  have hcb := coprime_of_gcd (natAbs_gcd _ _) h2 f3 f4
  have hx2 := hx.2
  have hy2 := hy.2
  have hx1 := hx.1
  have hy1 := hy.1
  have n1 := gcd_nonneg x.num y.den
  have n2 := gcd_nonneg y.num x.den
  generalize gcd x.num y.den = g1 at *
  generalize gcd y.num x.den = g2 at *
  rw [f1, f4] at hx2
  rw [f3, f2] at hy2
  have hcop : IsCoprime (a * c) (b * d) := by
    apply IsCoprime.mul_left
    · exact (hx2.of_mul_left_right.of_mul_right_right).mul_right had
    · exact hcb.mul_right (hy2.of_mul_left_right.of_mul_right_right)
  refine ⟨⟨a * c, b * d⟩, hm, hcop, fun p1 p2 => ⟨?_, hcop⟩⟩
  have q1 : 0 < g1 := by have := n1 p1 hy1.le; omega
  have q2 : 0 < g2 := by have := n2 p2 hx1.le; omega
  rw [f4] at hx1
  rw [f2] at hy1
  exact mul_pos ((mul_pos_iff_of_pos_left q2).mp hx1) ((mul_pos_iff_of_pos_left q1).mp hy1)

example : Canonical ⟨1, 6⟩ ∧ Canonical ⟨3, 10⟩ :=
  ⟨⟨by decide, by rw [Int.isCoprime_iff_gcd_eq_one]; decide⟩,
   ⟨by decide, by rw [Int.isCoprime_iff_gcd_eq_one]; decide⟩⟩

/-- C17, violated: -3/4 + 1/4 is stored as 1/(-2): the sign query reports +1 and the result differs
from the constant -1/2. -/
theorem add_canonical_violated :
    add ⟨-3, 4⟩ ⟨1, 4⟩ = some ⟨1, -2⟩ ∧ getSign ⟨1, -2⟩ = 1 ∧ val ⟨1, -2⟩ < 0 ∧
      mk (-1) 2 = some ⟨-1, 2⟩ ∧ eq ⟨1, -2⟩ ⟨-1, 2⟩ = false := by
  refine ⟨by simp [add, gcd_step, gcd_zero, cdiv], by decide, ?_, by simp [mk, canonicalize, gcd_step, gcd_zero, cdiv], by decide⟩
  simp only [val]; norm_num

/-- C17, violated: (-1/2) * (1/3) is stored as 1/(-6). -/
theorem mul_canonical_violated :
    mul ⟨-1, 2⟩ ⟨1, 3⟩ = some ⟨1, -6⟩ ∧ getSign ⟨1, -6⟩ = 1 ∧ val ⟨1, -6⟩ < 0 := by
  refine ⟨by simp [mul, gcd_step, gcd_zero, cdiv], by decide, ?_⟩
  simp only [val]; norm_num

/-! ### C18: comparison -/

/-- C18: with positive denominators `<` terminates and is the order of the values. -/
theorem lt_spec (x y : Q) (hx : 0 < x.den) (hy : 0 < y.den) (fuel : Nat) (hf : x.den + 1 < fuel) :
    lt fuel x y = some (decide (val x < val y)) := by
  have hv : ∀ z : Q, 0 < z.den →
      (⟨z.den, z.num.tdiv z.den, z.num.tmod z.den⟩ : CF).value = val z := by
    intro z hz
    have hzq : (z.den : ℚ) ≠ 0 := by exact_mod_cast hz.ne'
    have e : ((z.den * z.num.tdiv z.den + z.num.tmod z.den : Int) : ℚ) = z.num := by
      rw [Int.mul_tdiv_add_tmod]
    push_cast at e
    simp only [CF.value, val]
    field_simp
    linarith
  have hr : ∀ z : Q, 0 < z.den → -z.den < z.num.tmod z.den ∧ z.num.tmod z.den < z.den := by
    intro z hz
    refine ⟨?_, Int.tmod_lt_of_pos _ hz⟩
    have := Int.tmod_lt_of_pos (-z.num) hz
    rw [Int.neg_tmod] at this
    omega
  obtain ⟨ts, t1, t2, t3, t4, t5⟩ := norm_spec fuel ⟨x.den, x.num.tdiv x.den, x.num.tmod x.den⟩ hx
    (hr x hx).1 (hr x hx).2 (by omega)
  obtain ⟨rs, r1, r2, r3, r4, r5⟩ := norm_spec fuel ⟨y.den, y.num.tdiv y.den, y.num.tmod y.den⟩ hy
    (hr y hy).1 (hr y hy).2 (by omega)
  rw [lt, cdiv_some _ _ hx.ne', cmod_some _ _ hx.ne', cdiv_some _ _ hy.ne', cmod_some _ _ hy.ne']
  simp only [Option.bind_eq_bind, Option.bind_some, t1, r1]
  simp only at t2
  rw [ltLoop_spec fuel ts rs false t3 t4 r3 r4 (by omega), t5, r5, hv x hx, hv y hy]
  simp

example : lt 100 ⟨-7, 3⟩ ⟨-16, 7⟩ = some true := by
  rw [lt_spec _ _ (by decide) (by decide) _ (by decide)]; simp [val]; norm_num

/-- C18: on canonical operands `>` is the order of the values. -/
theorem gt_spec (x y : Q) (hx : Canonical x) (hy : Canonical y) (fuel : Nat) (hf : x.den + 1 < fuel) :
    gt fuel x y = some (decide (val y < val x)) := by
  rw [gt]
  by_cases h : eq x y = true
  · rw [if_pos h]; rw [eq_spec x y hx hy] at h; simp [h]
  · rw [if_neg h, lt_spec x y hx.1 hy.1 fuel hf]
    rw [eq_spec x y hx hy] at h
    rcases lt_trichotomy (val x) (val y) with h1 | h1 | h1
    · simp [h1, h1.le]
    · exact absurd h1 h
    · simp [h1, h1.le]

/-- C18, violated on values the class produces itself: -3/4 + 1/4 (stored as 1/(-2)) does not
compare less than 0. -/
theorem lt_negative_violated :
    add ⟨-3, 4⟩ ⟨1, 4⟩ = some ⟨1, -2⟩ ∧ val ⟨1, -2⟩ < val ⟨0, 1⟩ ∧
      lt 10 ⟨1, -2⟩ ⟨0, 1⟩ = some false := by
  refine ⟨add_canonical_violated.1, ?_, by decide⟩
  simp only [val]; norm_num

/-- C18, violated: adding 1 to that sum gives (-1)/(-2); comparing it with 0 never terminates (the
normalisation loop diverges). -/
theorem lt_diverges_violated :
    add ⟨1, -2⟩ ⟨1, 1⟩ = some ⟨-1, -2⟩ ∧ ∀ fuel, lt fuel ⟨-1, -2⟩ ⟨0, 1⟩ = none := by
  refine ⟨by simp [add, gcd_step, gcd_zero, cdiv], fun fuel => ?_⟩
  have h : ∀ fuel (c : CF), c.d < 0 → c.r < 0 → norm fuel c = none := by
    intro fuel
    induction fuel with
    | zero => intros; rfl
    | succ f ih =>
      intro c hd hr
      rw [norm, if_pos hr]
      exact ih _ hd (by simp only; omega)
  simp only [lt, cdiv, cmod]
  rw [if_neg (by decide), if_neg (by decide)]
  simp only [Option.bind_eq_bind, Option.bind_some]
  rw [h fuel _ (by decide) (by decide)]
  rfl

end Verif.Rational
