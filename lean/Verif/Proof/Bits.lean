import Verif.Model.Bits
/-! Helper lemmas for alignment and bit counting. -/
namespace Verif.Bits

theorem toNat_twoPow_sub_one {w k : Nat} (hk : k < w) :
    (BitVec.twoPow w k - 1#w).toNat = 2 ^ k - 1 := by
  have h2 : 2 ^ k < 2 ^ w := Nat.pow_lt_pow_right (by decide) hk
  have h3 : 1 ≤ 2 ^ k := Nat.one_le_two_pow
  have hw : 1 < 2 ^ w := Nat.one_lt_two_pow (by omega)
  rw [BitVec.toNat_sub_of_le]
  · rw [BitVec.toNat_twoPow, Nat.mod_eq_of_lt h2, BitVec.toNat_ofNat, Nat.mod_eq_of_lt hw]
  · rw [BitVec.le_def, BitVec.toNat_twoPow, Nat.mod_eq_of_lt h2, BitVec.toNat_ofNat,
      Nat.mod_eq_of_lt hw]
    exact h3

/-- Masking with the complement of `2^k - 1` clears the low `k` bits. -/
theorem toNat_and_not_mask {w k : Nat} (hk : k < w) (n : BitVec w) :
    (n &&& ~~~(BitVec.twoPow w k - 1#w)).toNat = n.toNat - n.toNat % 2 ^ k := by
  have e : n.toNat - n.toNat % 2 ^ k = 2 ^ k * (n.toNat / 2 ^ k) := by
    have := Nat.div_add_mod n.toNat (2 ^ k)
    omega
  rw [e]
  apply Nat.eq_of_testBit_eq
  intro i
  rw [BitVec.testBit_toNat, BitVec.getLsbD_and, BitVec.getLsbD_not, ← BitVec.testBit_toNat,
    ← BitVec.testBit_toNat, toNat_twoPow_sub_one hk, Nat.testBit_two_pow_sub_one,
    Nat.testBit_two_pow_mul, Nat.testBit_div_two_pow]
  by_cases hi : i < k
  · have : ¬ k ≤ i := by omega
    simp [hi, this]
  · have h1 : k ≤ i := by omega
    rw [show i - k + k = i by omega]
    by_cases hw : i < w
    · simp [hi, h1, hw]
    · have : n.toNat.testBit i = false := by
        rw [BitVec.testBit_toNat]; exact BitVec.getLsbD_of_ge _ _ (by omega)
      simp [this]

theorem bitLength_bounds (n : Nat) (h : 0 < n) : 2 ^ (bitLength n - 1) ≤ n ∧ n < 2 ^ bitLength n := by
  induction n using Nat.strongRecOn with
  | _ n ih =>
    rw [bitLength, if_pos h]
    by_cases h2 : 0 < n / 2
    · obtain ⟨a, b⟩ := ih (n / 2) (by omega) h2
      have hpos : bitLength (n / 2) ≠ 0 := by rw [bitLength, if_pos h2]; omega
      obtain ⟨m, hm⟩ : ∃ m, bitLength (n / 2) = m + 1 := ⟨bitLength (n/2) - 1, by omega⟩
      rw [hm] at a b ⊢
      simp only [Nat.add_sub_cancel] at a ⊢
      rw [Nat.pow_succ] at b ⊢
      rw [Nat.pow_succ]
      omega
    · have : n / 2 = 0 := by omega
      rw [this, bitLength]
      simp
      omega

theorem bitLength_zero : bitLength 0 = 0 := by rw [bitLength]; simp

theorem lt_two_pow_bitLength (n : Nat) : n < 2 ^ bitLength n := by
  rcases Nat.eq_zero_or_pos n with rfl | h
  · exact Nat.two_pow_pos _
  · exact (bitLength_bounds n h).2

theorem bitLength_le_iff (n k : Nat) : bitLength n ≤ k ↔ n < 2 ^ k := by
  constructor
  · intro h
    exact Nat.lt_of_lt_of_le (lt_two_pow_bitLength n) (Nat.pow_le_pow_right (by decide) h)
  · intro h
    rcases Nat.eq_zero_or_pos n with rfl | hp
    · rw [bitLength_zero]; exact Nat.zero_le _
    · have := (bitLength_bounds n hp).1
      rcases Nat.lt_or_ge k (bitLength n) with hlt | hge
      · have : 2 ^ k ≤ 2 ^ (bitLength n - 1) := Nat.pow_le_pow_right (by decide) (by omega)
        omega
      · exact hge

/-- Smearing step: after `i |= i >> s` a bit is set iff a bit in the window of twice the size is. -/
theorem smear_step {w} (x y : BitVec w) (s : Nat)
    (hx : ∀ i, x.getLsbD i = true ↔ ∃ d, d < s ∧ y.getLsbD (i + d) = true) :
    ∀ i, (x ||| x >>> s).getLsbD i = true ↔ ∃ d, d < 2 * s ∧ y.getLsbD (i + d) = true := by
  intro i
  rw [BitVec.getLsbD_or, BitVec.getLsbD_ushiftRight, Bool.or_eq_true, hx, hx]
  constructor
  · rintro (⟨d, h1, h2⟩ | ⟨d, h1, h2⟩)
    · exact ⟨d, by omega, h2⟩
    · exact ⟨s + d, by omega, by rw [← h2]; congr 1; omega⟩
  · rintro ⟨d, h1, h2⟩
    by_cases h : d < s
    · exact Or.inl ⟨d, h, h2⟩
    · exact Or.inr ⟨d - s, by omega, by rw [← h2]; congr 1; omega⟩

/-- Top bit of a non-zero number. -/
theorem testBit_bitLength (n : Nat) (h : 0 < n) : n.testBit (bitLength n - 1) = true := by
  obtain ⟨h1, h2⟩ := bitLength_bounds n h
  have hpos : bitLength n ≠ 0 := by rw [bitLength, if_pos h]; omega
  rw [show bitLength n = (bitLength n - 1) + 1 by omega, Nat.pow_succ] at h2
  rw [Nat.testBit_eq_decide_div_mod_eq]
  have : n / 2 ^ (bitLength n - 1) = 1 := by
    apply Nat.div_eq_of_lt_le <;> omega
  rw [this]; rfl

/-- A vector whose bits are exactly those at or below a bit of `y` is `2^(bitLength y) - 1`. -/
theorem toNat_of_downset {w} (x y : BitVec w)
    (hx : ∀ i, i < w → (x.getLsbD i = true ↔ ∃ d, y.getLsbD (i + d) = true)) :
    x.toNat = 2 ^ bitLength y.toNat - 1 := by
  have hle : bitLength y.toNat ≤ w := (bitLength_le_iff _ _).2 y.isLt
  apply Nat.eq_of_testBit_eq
  intro i
  rw [Nat.testBit_two_pow_sub_one, BitVec.testBit_toNat]
  by_cases hi : i < w
  · rw [Bool.eq_iff_iff, hx i hi, decide_eq_true_iff]
    constructor
    · rintro ⟨d, hd⟩
      rw [← BitVec.testBit_toNat] at hd
      rcases Nat.lt_or_ge i (bitLength y.toNat) with h | h
      · exact h
      · rw [Nat.testBit_lt_two_pow (Nat.lt_of_lt_of_le (lt_two_pow_bitLength _)
          (Nat.pow_le_pow_right (by decide) (by omega)))] at hd
        cases hd
    · intro h
      have hp : 0 < y.toNat := by
        rcases Nat.eq_zero_or_pos y.toNat with h0 | h0
        · rw [h0, bitLength_zero] at h; omega
        · exact h0
      refine ⟨bitLength y.toNat - 1 - i, ?_⟩
      rw [← BitVec.testBit_toNat, show i + (bitLength y.toNat - 1 - i) = bitLength y.toNat - 1 by omega]
      exact testBit_bitLength _ hp
  · rw [BitVec.getLsbD_of_ge _ _ (by omega)]
    have : ¬ i < bitLength y.toNat := by omega
    simp [this]

/-- bits of `binary_reverse(data, loc)`: bit `i` of `data` goes to `loc - i`, as long as `data` has
no bit above `loc`. -/
theorem getLsbD_binaryReverseAux {w} (data : BitVec w) (loc : Nat) (hloc : loc < w)
    (hd : data.toNat < 2 ^ (loc + 1)) (j : Nat) :
    (binaryReverseAux data loc).getLsbD j = (decide (j ≤ loc) && data.getLsbD (loc - j)) := by
  fun_induction binaryReverseAux data loc with
  | case1 loc => simp
  | case2 data loc hne hlt ih =>
    rw [BitVec.getLsbD_or, BitVec.getLsbD_shiftLeft, BitVec.getLsbD_and]
    have hone : ∀ k, (1#w).getLsbD k = (decide (k = 0)) := by
      intro k; rw [BitVec.getLsbD_one]; by_cases hk : k = 0 <;> simp [hk]; omega
    rw [hone]
    by_cases hl0 : loc = 0
    · subst hl0
      have h1 : data.toNat = 1 := by
        have : data.toNat ≠ 0 := fun h0 => hne (BitVec.eq_of_toNat_eq (by simpa using h0))
        simp at hd; omega
      have h2 : data >>> 1 = 0#w := by
        apply BitVec.eq_of_toNat_eq
        rw [BitVec.toNat_ushiftRight, h1]; simp
      rw [h2]
      have h0 : (binaryReverseAux (0#w) (0 - 1)) = 0#w := by rw [binaryReverseAux]; simp
      rw [h0]
      have hb : data = 1#w := by
        apply BitVec.eq_of_toNat_eq
        rw [h1, BitVec.toNat_ofNat, Nat.mod_eq_of_lt (Nat.one_lt_two_pow (by omega))]
      by_cases hj : j = 0
      · subst hj; simp [hb, hloc]
      · simp [hj]
    · rw [ih (by omega)]
      · rw [BitVec.getLsbD_ushiftRight]
        by_cases hj : j = loc
        · subst hj
          have : ¬ j ≤ j - 1 := by omega
          simp [hloc, this]
        · by_cases hj2 : j < loc
          · have e1 : j ≤ loc - 1 := by omega
            have e2 : j ≤ loc := by omega
            have e3 : 1 + (loc - 1 - j) = loc - j := by omega
            simp [hj2, e1, e2, e3]
          · have e1 : ¬ j ≤ loc - 1 := by omega
            have e2 : ¬ j ≤ loc := by omega
            have e3 : ¬ (j - loc = 0) := by omega
            simp [e1, e2, e3]
      · rw [BitVec.toNat_ushiftRight, Nat.shiftRight_eq_div_pow, Nat.pow_one]
        rw [Nat.sub_add_cancel (by omega)]
        rw [Nat.pow_succ] at hd
        omega

/-- The loop of `count_leading_zeros` counts trailing zeros of its argument. -/
theorem clzLoop_eq {w} (t fuel : Nat) (data : BitVec w) (res : Nat)
    (hz : ∀ i, i < t → data.getLsbD i = false) (ht : data.getLsbD t = true) (hf : t < fuel) :
    clzLoop fuel data res = res + t := by
  induction t generalizing fuel data res with
  | zero =>
    obtain ⟨f, rfl⟩ : ∃ f, fuel = f + 1 := ⟨fuel - 1, by omega⟩
    rw [clzLoop, if_neg (by simp [ht])]; rfl
  | succ t ih =>
    obtain ⟨f, rfl⟩ : ∃ f, fuel = f + 1 := ⟨fuel - 1, by omega⟩
    rw [clzLoop, if_pos (hz 0 (by omega)), ih]
    · omega
    · intro i hi
      rw [BitVec.getLsbD_ushiftRight]; exact hz _ (by omega)
    · rw [BitVec.getLsbD_ushiftRight, Nat.add_comm]; exact ht
    · omega

end Verif.Bits
