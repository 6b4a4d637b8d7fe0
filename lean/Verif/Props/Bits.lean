import Verif.Proof.Bits
import Verif.Proof.PopCount
/-! # C06, C07: alignment, powers of two, bit counting -/
namespace Verif.Bits

/-- C06: `round_down n (2^k)` is a multiple of `2^k`, at most `n`, and the largest such. -/
theorem roundDown_spec {w k : Nat} (hk : k < w) (n : BitVec w) :
    let r := (roundDown n (BitVec.twoPow w k)).toNat
    2 ^ k ∣ r ∧ r ≤ n.toNat ∧ ∀ m, 2 ^ k ∣ m → m ≤ n.toNat → m ≤ r := by
  intro r
  have hr : r = n.toNat - n.toNat % 2 ^ k := toNat_and_not_mask hk n
  have e : r = 2 ^ k * (n.toNat / 2 ^ k) := by
    rw [hr]; have := Nat.div_add_mod n.toNat (2 ^ k); omega
  refine ⟨⟨_, e⟩, by omega, ?_⟩
  rintro m ⟨c, rfl⟩ hm
  rw [e]
  apply Nat.mul_le_mul_left
  rw [Nat.le_div_iff_mul_le (Nat.two_pow_pos k), Nat.mul_comm]
  exact hm

/-- C06: `round_up n (2^k)` is the least multiple of `2^k` not below `n`, provided
`n + 2^k - 1` does not overflow. -/
theorem roundUp_spec {w k : Nat} (hk : k < w) (n : BitVec w) (hn : n.toNat + 2 ^ k ≤ 2 ^ w) :
    let r := (roundUp n (BitVec.twoPow w k)).toNat
    2 ^ k ∣ r ∧ n.toNat ≤ r ∧ r < n.toNat + 2 ^ k ∧ ∀ m, 2 ^ k ∣ m → n.toNat ≤ m → r ≤ m := by
  intro r
  have hp := Nat.two_pow_pos k
  have h0 : (n + BitVec.twoPow w k - 1#w).toNat = n.toNat + 2 ^ k - 1 := by
    have h1 : n + BitVec.twoPow w k - 1#w = n + (BitVec.twoPow w k - 1#w) := by
      rw [BitVec.sub_eq_add_neg, BitVec.sub_eq_add_neg, BitVec.add_assoc]
    rw [h1, BitVec.toNat_add, toNat_twoPow_sub_one hk, Nat.mod_eq_of_lt (by omega)]
    omega
  have hr : r = (n.toNat + 2 ^ k - 1) - (n.toNat + 2 ^ k - 1) % 2 ^ k := by
    show (roundUp n (BitVec.twoPow w k)).toNat = _
    rw [roundUp, toNat_and_not_mask hk, h0]
  have hlt := Nat.mod_lt (n.toNat + 2 ^ k - 1) hp
  have e : r = 2 ^ k * ((n.toNat + 2 ^ k - 1) / 2 ^ k) := by
    rw [hr]; have := Nat.div_add_mod (n.toNat + 2 ^ k - 1) (2 ^ k); omega
  refine ⟨⟨_, e⟩, by omega, by omega, ?_⟩
  rintro m ⟨c, rfl⟩ hm
  rw [e]
  apply Nat.mul_le_mul_left
  rw [← Nat.lt_succ_iff, Nat.div_lt_iff_lt_mul hp, Nat.succ_mul, Nat.mul_comm]
  omega

/-- C06: without the overflow hypothesis `round_up` can return a value below its argument. -/
theorem roundUp_overflow_violated :
    ∃ n : BitVec 64, ∃ k, k < 64 ∧ (roundUp n (BitVec.twoPow 64 k)).toNat < n.toNat :=
  ⟨0xffffffffffffffff#64, 12, by decide⟩

/-- C07: `bit_length n` is the number of binary digits: the least `k` with `n < 2^k`. -/
theorem bitLength_spec (n k : Nat) : bitLength n ≤ k ↔ n < 2 ^ k := bitLength_le_iff n k

/-- C07: `bit_count n` is the least number of bits able to express every integer in `[0, n)`. -/
theorem bitCount_spec (n k : Nat) : bitCount n ≤ k ↔ ∀ m, m < n → m < 2 ^ k := by
  rw [bitCount]
  split
  · rw [bitLength_le_iff]
    constructor
    · intro h m hm; omega
    · intro h; exact h _ (by omega)
  · have : n = 0 := by omega
    subst this
    simp

/-- C06: `next_2pow n` is the least power of two that is at least `n` (for `1 ≤ n ≤ 2^(w-1)`). -/
theorem next2pow_spec (w : Nat) (n : BitVec w) (h1 : 1 ≤ n.toNat) (h2 : n.toNat ≤ 2 ^ (w - 1)) :
    ∃ r k, next2pow w n = some r ∧ r.toNat = 2 ^ k ∧ n.toNat ≤ r.toNat ∧
      (∀ j, n.toNat ≤ 2 ^ j → r.toNat ≤ 2 ^ j) := by
  have hw : 0 < w := by
    rcases Nat.eq_zero_or_pos w with rfl | h
    · have := n.isLt; simp at this; omega
    · exact h
  have hs : bitCount n.toNat ≤ w - 1 := by
    rw [bitCount_spec]; intro m hm; omega
  have hlt : bitCount n.toNat < w := by omega
  have hv : (1#w <<< bitCount n.toNat).toNat = 2 ^ bitCount n.toNat := by
    rw [BitVec.toNat_shiftLeft, BitVec.toNat_ofNat, Nat.mod_eq_of_lt (Nat.one_lt_two_pow (by omega)),
      Nat.shiftLeft_eq, Nat.one_mul, Nat.mod_eq_of_lt (Nat.pow_lt_pow_right (by decide) hlt)]
  refine ⟨1#w <<< bitCount n.toNat, bitCount n.toNat, ?_, hv, ?_, ?_⟩
  · rw [next2pow, if_pos hlt]
  · rw [hv]
    have := (bitCount_spec n.toNat (bitCount n.toNat)).1 (Nat.le_refl _) (n.toNat - 1) (by omega)
    omega
  · intro j hj
    rw [hv]
    apply Nat.pow_le_pow_right (by decide)
    rw [bitCount_spec]; intro m hm; omega

/-- C06: `next_2pow 0 = 1`. -/
theorem next2pow_zero (w : Nat) (hw : 0 < w) : next2pow w 0#w = some 1#w := by
  simp [next2pow, bitCount, hw]

/-- C06: above `2^(w-1)` the shift amount equals the width: undefined behaviour. -/
theorem next2pow_ub (w : Nat) (n : BitVec w) (h : 2 ^ (w - 1) < n.toNat) : next2pow w n = none := by
  rw [next2pow, if_neg]
  intro hlt
  have hle : bitCount n.toNat ≤ w - 1 := by clear h; omega
  have hp := Nat.two_pow_pos (w - 1)
  have := (bitCount_spec _ _).1 hle (n.toNat - 1) (by omega)
  omega

/-- the five smearing steps of `next_power_of_two` -/
theorem smear32 (y i1 i2 i3 i4 i5 : BitVec 32) (e1 : i1 = y ||| y >>> 1) (e2 : i2 = i1 ||| i1 >>> 2)
    (e3 : i3 = i2 ||| i2 >>> 4) (e4 : i4 = i3 ||| i3 >>> 8) (e5 : i5 = i4 ||| i4 >>> 16) :
    i5.toNat = 2 ^ bitLength y.toNat - 1 := by
  apply toNat_of_downset
  have s0 : ∀ i, y.getLsbD i = true ↔ ∃ d, d < 1 ∧ y.getLsbD (i + d) = true := by
    intro i
    constructor
    · intro h; exact ⟨0, by decide, h⟩
    · rintro ⟨d, h1, h2⟩
      have : d = 0 := by omega
      subst this; exact h2
  have s1 := smear_step _ _ 1 s0
  rw [← e1] at s1
  have s2 := smear_step _ _ 2 s1
  rw [← e2] at s2
  have s3 := smear_step _ _ 4 s2
  rw [← e3] at s3
  have s4 := smear_step _ _ 8 s3
  rw [← e4] at s4
  have s5 := smear_step _ _ 16 s4
  rw [← e5] at s5
  intro i _
  rw [s5 i]
  constructor
  · rintro ⟨d, -, h⟩; exact ⟨d, h⟩
  · rintro ⟨d, h⟩
    refine ⟨d, ?_, h⟩
    rcases Nat.lt_or_ge d 32 with hd | hd
    · exact hd
    · rw [BitVec.getLsbD_of_ge _ _ (by omega)] at h; cases h

/-- C06: `next_power_of_two i` is the least power of two that is at least `i`
(for `1 ≤ i ≤ 2^31`). -/
theorem nextPowerOfTwo_spec (i : BitVec 32) (h1 : 1 ≤ i.toNat) (h2 : i.toNat ≤ 2 ^ 31) :
    (∃ k, (nextPowerOfTwo i).toNat = 2 ^ k) ∧ i.toNat ≤ (nextPowerOfTwo i).toNat ∧
      ∀ j, i.toNat ≤ 2 ^ j → (nextPowerOfTwo i).toNat ≤ 2 ^ j := by
  have hs := smear32 (i - 1#32) _ _ _ _ _ rfl rfl rfl rfl rfl
  have hi : (i - 1#32).toNat = i.toNat - 1 := by
    rw [BitVec.toNat_sub_of_le (by rw [BitVec.le_def]; exact h1)]; rfl
  rw [hi] at hs
  have hle : bitLength (i.toNat - 1) ≤ 31 := (bitLength_le_iff _ _).2 (by omega)
  have hp : 2 ^ bitLength (i.toNat - 1) ≤ 2 ^ 31 := Nat.pow_le_pow_right (by decide) hle
  have hpos := Nat.two_pow_pos (bitLength (i.toNat - 1))
  have hv : (nextPowerOfTwo i).toNat = 2 ^ bitLength (i.toNat - 1) := by
    rw [nextPowerOfTwo, BitVec.toNat_add, hs]
    rw [show (1#32).toNat = 1 from rfl, Nat.sub_add_cancel hpos, Nat.mod_eq_of_lt (by omega)]
  refine ⟨⟨_, hv⟩, ?_, ?_⟩
  · rw [hv]
    have := lt_two_pow_bitLength (i.toNat - 1)
    omega
  · intro j hj
    rw [hv]
    apply Nat.pow_le_pow_right (by decide)
    rw [bitLength_le_iff]; omega

/-- C06: the documented "next power of two *bigger* than i" does not hold: powers of two are
returned unchanged; and 0 is mapped to 0. -/
theorem nextPowerOfTwo_bigger_violated :
    ¬ ∀ i : BitVec 32, i.toNat < 2 ^ 31 → i.toNat < (nextPowerOfTwo i).toNat :=
  fun h => absurd (h 8#32 (by decide)) (by decide)

example : nextPowerOfTwo 9#32 = 16#32 ∧ nextPowerOfTwo 0#32 = 0#32 := by decide
example : 1 ≤ (9#32).toNat ∧ (9#32).toNat ≤ 2 ^ 31 := by decide
example : (9#64).toNat + 2 ^ 4 ≤ 2 ^ 64 ∧ 4 < 64 := by decide
example : (roundUp 17#64 (BitVec.twoPow 64 4)).toNat = 32 := by decide

/-- C07: `binary_reverse` maps bit `i` to bit `w-1-i`. -/
theorem binaryReverse_getLsbD {w} (x : BitVec w) (j : Nat) (hj : j < w) :
    (binaryReverse x).getLsbD j = x.getLsbD (w - 1 - j) := by
  rw [binaryReverse, getLsbD_binaryReverseAux _ _ (by omega)]
  · have : j ≤ w - 1 := by omega
    simp [this]
  · rw [Nat.sub_add_cancel (by omega)]; exact x.isLt

/-- C07: reversing twice is the identity. -/
theorem binaryReverse_involutive {w} (x : BitVec w) : binaryReverse (binaryReverse x) = x := by
  apply BitVec.eq_of_getLsbD_eq
  intro i hi
  rw [binaryReverse_getLsbD _ _ hi, binaryReverse_getLsbD _ _ (by omega)]
  congr 1; omega

/-- C07: `count_leading_zeros` is the width minus the number of binary digits. -/
theorem countLeadingZeros_spec {w} (x : BitVec w) :
    countLeadingZeros x = w - bitLength x.toNat := by
  rw [countLeadingZeros]
  split
  · rename_i h
    have hx : x = 0#w := by
      rw [← binaryReverse_involutive x, h, binaryReverse, binaryReverseAux]; simp
    subst hx
    simp [bitLength_zero]
  · rename_i h
    have hx : x ≠ 0#w := by
      rintro rfl
      apply h
      rw [binaryReverse, binaryReverseAux]; simp
    have hp : 0 < x.toNat := Nat.pos_of_ne_zero fun h0 => hx (BitVec.eq_of_toNat_eq (by simpa using h0))
    have hle : bitLength x.toNat ≤ w := (bitLength_le_iff _ _).2 x.isLt
    have hb : 0 < bitLength x.toNat := by rw [bitLength, if_pos hp]; omega
    rw [clzLoop_eq (w - bitLength x.toNat) w, Nat.zero_add]
    · intro i hi
      rw [binaryReverse_getLsbD _ _ (by omega), ← BitVec.testBit_toNat]
      apply Nat.testBit_lt_two_pow
      exact Nat.lt_of_lt_of_le (lt_two_pow_bitLength _) (Nat.pow_le_pow_right (by decide) (by omega))
    · rw [binaryReverse_getLsbD _ _ (by omega), ← BitVec.testBit_toNat,
        show w - 1 - (w - bitLength x.toNat) = bitLength x.toNat - 1 by omega]
      exact testBit_bitLength _ hp
    · omega

/-- C07: `num_bits_on` is the population count. -/
theorem numBitsOn_spec (v : BitVec 64) :
    (numBitsOn v).toNat = (List.range 64).countP (fun i => v.getLsbD i) := by
  have m1 : 0x5555555555555555 = fmask 1 32 := by decide
  have m2 : 0x3333333333333333 = fmask 2 16 := by decide
  have m3 : 0xF0F0F0F0F0F0F0F = fmask 4 8 := by decide
  have e1 : (v - ((v >>> 1) &&& 0x5555555555555555#64)).toNat = foldStep 1 32 v.toNat := by
    obtain ⟨h1, h2⟩ := sub_mask_eq 32 v.toNat v.isLt
    have ht : ((v >>> 1) &&& 0x5555555555555555#64).toNat = (v.toNat / 2 ^ 1 &&& fmask 1 32) := by
      rw [BitVec.toNat_and, BitVec.toNat_ushiftRight, Nat.shiftRight_eq_div_pow, ← m1]; rfl
    rw [BitVec.toNat_sub_of_le (by rw [BitVec.le_def, ht]; exact h2), ht, h1]
  generalize hv1 : v - ((v >>> 1) &&& 0x5555555555555555#64) = v1 at e1
  have e2 : ((v1 &&& 0x3333333333333333#64) + ((v1 >>> 2) &&& 0x3333333333333333#64)).toNat
      = foldStep 2 16 v1.toNat := by
    have hlt := foldStep_lt 2 16 v1.toNat (by decide)
    rw [BitVec.toNat_add, BitVec.toNat_and, BitVec.toNat_and, BitVec.toNat_ushiftRight,
      Nat.shiftRight_eq_div_pow]
    rw [show (0x3333333333333333#64).toNat = fmask 2 16 from m2]
    exact Nat.mod_eq_of_lt hlt
  generalize hv2 : (v1 &&& 0x3333333333333333#64) + ((v1 >>> 2) &&& 0x3333333333333333#64) = v2 at e2
  have d1 : digLe (2 ^ (2 * 1)) (2 * 1) 32 v1.toNat := by
    rw [e1]; exact digLe_foldStep 1 32 _ 1 (by decide) (digLe_base2 _ _)
  have d2 : digLe (2 ^ (2 * 2)) (2 * 2) 16 v2.toNat := by
    rw [e2]; exact digLe_foldStep 2 16 _ 2 (by decide) d1
  have hv2lt : v2.toNat + v2.toNat / 2 ^ 4 < 2 ^ 64 := by
    have hd : ∀ n x, digLe (2 ^ 4) 4 n x → x < 2 ^ (4 * n) → 15 * x ≤ 4 * (2 ^ (4 * n) - 1) := by
      intro n
      induction n with
      | zero => intro x _ hx; simp at hx; subst hx; simp
      | succ n ih =>
        intro x hd hx
        have h1 := hd.1
        have h2 := ih (x / 2 ^ 4) hd.2 (by
          rw [Nat.mul_add, Nat.pow_add, Nat.mul_comm] at hx
          exact Nat.div_lt_of_lt_mul hx)
        have h3 := Nat.two_pow_pos (4 * n)
        rw [Nat.mul_add, Nat.pow_add]
        omega
    have := hd 16 v2.toNat d2 v2.isLt
    omega
  have e3 : ((v2 + (v2 >>> 4)) &&& 0xF0F0F0F0F0F0F0F#64).toNat = foldStep 4 8 v2.toNat := by
    rw [BitVec.toNat_and, BitVec.toNat_add, BitVec.toNat_ushiftRight, Nat.shiftRight_eq_div_pow,
      Nat.mod_eq_of_lt hv2lt, show (0xF0F0F0F0F0F0F0F#64).toNat = fmask 4 8 from m3,
      add_shift_and_eq 8 _ d2]
  generalize hv3 : (v2 + (v2 >>> 4)) &&& 0xF0F0F0F0F0F0F0F#64 = v3 at e3
  have d3 : digLe 256 8 8 v3.toNat := by
    rw [e3]; exact digLe_foldStep 4 8 _ 4 (by decide) d2
  have hnum : numBitsOn v = ((v3 * 0x101010101010101#64) >>> 56).truncate 8 := by
    simp only [numBitsOn, hv1, hv2, hv3]
  have htop := mul_ones_top v3.toNat v3.isLt d3
  have hfin : ds 256 8 v3.toNat = (List.range 64).countP (fun i => v.getLsbD i) := by
    rw [e3, show (256 : Nat) = 2 ^ (2 * 4) by decide, ds_foldStep 4 8 _ (by decide), e2,
      show (2:Nat) ^ 4 = 2 ^ (2 * 2) by decide, ds_foldStep 2 16 _ (by decide), e1,
      show (2:Nat) ^ 2 = 2 ^ (2 * 1) by decide, ds_foldStep 1 32 _ (by decide)]
    exact ds_two 64 v.toNat
  have hle : (List.range 64).countP (fun i => v.getLsbD i) ≤ 64 := by
    have := List.countP_le_length (p := fun i => v.getLsbD i) (l := List.range 64)
    simpa using this
  rw [hnum, BitVec.truncate_eq_setWidth, BitVec.toNat_setWidth, BitVec.toNat_ushiftRight,
    BitVec.toNat_mul, Nat.shiftRight_eq_div_pow, show (0x101010101010101#64).toNat = 0x101010101010101 from rfl,
    htop, hfin, Nat.mod_eq_of_lt (by omega)]

/-- C07: `is_bit_on` reads one bit. -/
theorem isBitOn_spec (mask : BitVec 64) (b : Nat) (hb : b < 64) : isBitOn mask b = mask.getLsbD b := by
  have hb' : b &&& 63 = b := by
    rw [show 63 = 2 ^ 6 - 1 by decide, Nat.and_two_pow_sub_one_eq_mod, Nat.mod_eq_of_lt hb]
  rw [isBitOn, hb', Bool.eq_iff_iff, bne_iff_ne]
  constructor
  · intro h
    rcases hm : mask.getLsbD b with _ | _
    · exfalso; apply h
      apply BitVec.eq_of_getLsbD_eq
      intro i hi
      rw [BitVec.getLsbD_and, BitVec.getLsbD_shiftLeft, BitVec.getLsbD_one]
      by_cases e : i = b
      · subst e; simp [hm]
      · by_cases h2 : i < b
        · simp [h2]
        · have : ¬ (i - b = 0) := by omega
          simp [this]
    · rfl
  · intro h h0
    have := congrArg (fun v => v.getLsbD b) h0
    simp only [BitVec.getLsbD_and, BitVec.getLsbD_shiftLeft, BitVec.getLsbD_one, h] at this
    simp [hb] at this

/-- C07: `interleaved_bit_mask(dim)` has exactly the bits at multiples of `dim`. -/
theorem interleavedBitMask_spec (w dim : Nat) (hd : 0 < dim) (i : Nat) (hi : i < w) :
    (interleavedBitMask w dim).getLsbD i = decide (i % dim = 0) := by
  have key : ∀ fuel c (m : BitVec w), (w ≤ c + fuel) → c % dim = 0 →
      (interleavedBitMaskLoop dim fuel c m).getLsbD i
        = (m.getLsbD i || (decide (c ≤ i) && decide (i % dim = 0))) := by
    intro fuel
    induction fuel with
    | zero =>
      intro c m hf _
      have : ¬ c ≤ i := by omega
      simp [interleavedBitMaskLoop, this]
    | succ fuel ih =>
      intro c m hf hc
      rw [interleavedBitMaskLoop]
      split
      · rw [ih _ _ (by omega) (by rw [Nat.add_mod_right]; exact hc)]
        rw [BitVec.getLsbD_or, BitVec.getLsbD_shiftLeft, BitVec.getLsbD_one]
        by_cases h1 : i < c
        · have h2 : ¬ c + dim ≤ i := by omega
          have h3 : ¬ c ≤ i := by omega
          simp [h1, h2, h3]
        · by_cases h4 : i = c
          · subst h4
            have : 0 < w := by omega
            simp [hi, hc, this]
          · have h5 : c ≤ i := by omega
            have h6 : ¬ i - c = 0 := by omega
            by_cases h7 : c + dim ≤ i
            · simp [h5, h6, h7]
            · have h8 : ¬ i % dim = 0 := by
                intro h
                have hdvd : dim ∣ i - c := (Nat.dvd_sub (Nat.dvd_of_mod_eq_zero h) (Nat.dvd_of_mod_eq_zero hc))
                have := Nat.le_of_dvd (by omega) hdvd
                omega
              simp [h6, h8]
      · have : ¬ c ≤ i := by omega
        simp [this]
  rw [interleavedBitMask, key _ _ _ (by omega) (Nat.zero_mod _)]
  simp

example : numBitsOn 0xF0F1#64 = 9#8 := by decide
example : countLeadingZeros 5#64 = 61 := by
  rw [countLeadingZeros_spec]
  simp [bitLength]

end Verif.Bits
