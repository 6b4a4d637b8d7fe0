import Verif.Model.Bits
/-! Helper lemmas for the SWAR population count: sums of digits in growing bases. -/
namespace Verif.Bits

/-- Sum of the `n` lowest base-`b` digits. -/
def ds (b : Nat) : Nat → Nat → Nat
  | 0, _ => 0
  | n + 1, x => x % b + ds b n (x / b)

/-- `n` copies of `2^k - 1`, spaced by `2k` bits. -/
def fmask (k : Nat) : Nat → Nat
  | 0 => 0
  | n + 1 => (2 ^ k - 1) + 2 ^ (2 * k) * fmask k n

/-- All `n` lowest base-`b` digits are at most `c`. -/
def digLe (b c : Nat) : Nat → Nat → Prop
  | 0, _ => True
  | n + 1, x => x % b ≤ c ∧ digLe b c n (x / b)

theorem and_fmask (k n x : Nat) :
    x &&& fmask k (n + 1) = x % 2 ^ k + 2 ^ (2 * k) * (x / 2 ^ (2 * k) &&& fmask k n) := by
  have hlt : x % 2 ^ k < 2 ^ (2 * k) :=
    Nat.lt_of_lt_of_le (Nat.mod_lt _ (Nat.two_pow_pos _)) (Nat.pow_le_pow_right (by decide) (by omega))
  have hlt2 : 2 ^ k - 1 < 2 ^ (2 * k) := by
    have : 2 ^ k ≤ 2 ^ (2 * k) := Nat.pow_le_pow_right (by decide) (by omega)
    have := Nat.two_pow_pos k
    omega
  apply Nat.eq_of_testBit_eq
  intro i
  rw [fmask, Nat.add_comm (x % 2 ^ k), Nat.add_comm (2 ^ k - 1), Nat.testBit_and,
    Nat.testBit_two_pow_mul_add _ hlt, Nat.testBit_two_pow_mul_add _ hlt2]
  by_cases hi : i < 2 * k
  · rw [if_pos hi, if_pos hi, Nat.testBit_two_pow_sub_one, Nat.testBit_mod_two_pow, Bool.and_comm]
  · rw [if_neg hi, if_neg hi, Nat.testBit_and, Nat.testBit_div_two_pow,
      show i - 2 * k + 2 * k = i by omega]

/-- The masked pairwise sum. -/
def foldStep (k n x : Nat) : Nat := (x &&& fmask k n) + (x / 2 ^ k &&& fmask k n)

theorem foldStep_succ (k n x : Nat) :
    foldStep k (n + 1) x
      = (x % 2 ^ k + x / 2 ^ k % 2 ^ k) + 2 ^ (2 * k) * foldStep k n (x / 2 ^ (2 * k)) := by
  have h : x / 2 ^ k / 2 ^ (2 * k) = x / 2 ^ (2 * k) / 2 ^ k := by
    rw [Nat.div_div_eq_div_mul, Nat.div_div_eq_div_mul, Nat.mul_comm]
  rw [foldStep, foldStep, and_fmask, and_fmask, h, Nat.mul_add]
  omega

theorem pair_lt (k x : Nat) (hk : 0 < k) : x % 2 ^ k + x / 2 ^ k % 2 ^ k < 2 ^ (2 * k) := by
  have h1 := Nat.mod_lt x (Nat.two_pow_pos k)
  have h2 := Nat.mod_lt (x / 2 ^ k) (Nat.two_pow_pos k)
  have h3 : 2 ^ (2 * k) = 2 ^ k * 2 ^ k := by rw [Nat.two_mul, Nat.pow_add]
  have h4 : 2 ≤ 2 ^ k := by
    calc 2 = 2 ^ 1 := rfl
      _ ≤ 2 ^ k := Nat.pow_le_pow_right (by decide) hk
  have h5 : 2 * 2 ^ k ≤ 2 ^ k * 2 ^ k := Nat.mul_le_mul_right _ h4
  omega

theorem foldStep_mod (k n x : Nat) (hk : 0 < k) :
    foldStep k (n + 1) x % 2 ^ (2 * k) = x % 2 ^ k + x / 2 ^ k % 2 ^ k := by
  rw [foldStep_succ, Nat.add_mul_mod_self_left, Nat.mod_eq_of_lt (pair_lt k x hk)]

theorem foldStep_div (k n x : Nat) (hk : 0 < k) :
    foldStep k (n + 1) x / 2 ^ (2 * k) = foldStep k n (x / 2 ^ (2 * k)) := by
  rw [foldStep_succ, Nat.add_mul_div_left _ _ (Nat.two_pow_pos _), Nat.div_eq_of_lt (pair_lt k x hk),
    Nat.zero_add]

theorem ds_foldStep (k n x : Nat) (hk : 0 < k) :
    ds (2 ^ (2 * k)) n (foldStep k n x) = ds (2 ^ k) (2 * n) x := by
  induction n generalizing x with
  | zero => rfl
  | succ n ih =>
    have h : x / 2 ^ k / 2 ^ k = x / 2 ^ (2 * k) := by
      rw [Nat.div_div_eq_div_mul, ← Nat.pow_add, Nat.two_mul]
    rw [ds, foldStep_mod _ _ _ hk, foldStep_div _ _ _ hk, ih, show 2 * (n + 1) = 2 * n + 1 + 1 by omega,
      ds, ds, h]
    omega

theorem digLe_foldStep (k n x c : Nat) (hk : 0 < k) (h : digLe (2 ^ k) c (2 * n) x) :
    digLe (2 ^ (2 * k)) (2 * c) n (foldStep k n x) := by
  induction n generalizing x with
  | zero => trivial
  | succ n ih =>
    have e : x / 2 ^ k / 2 ^ k = x / 2 ^ (2 * k) := by
      rw [Nat.div_div_eq_div_mul, ← Nat.pow_add, Nat.two_mul]
    rw [show 2 * (n + 1) = 2 * n + 1 + 1 by omega, digLe, digLe, e] at h
    rw [digLe, foldStep_mod _ _ _ hk, foldStep_div _ _ _ hk]
    exact ⟨by omega, ih _ h.2.2⟩

theorem digLe_base2 (n x : Nat) : digLe (2 ^ 1) 1 n x := by
  induction n generalizing x with
  | zero => trivial
  | succ n ih => exact ⟨by omega, ih _⟩

theorem foldStep_lt (k n x : Nat) (hk : 0 < k) : foldStep k n x < 2 ^ (2 * k * n) := by
  induction n generalizing x with
  | zero => simp [foldStep, fmask]
  | succ n ih =>
    rw [foldStep_succ]
    have h1 := pair_lt k x hk
    have h2 := ih (x / 2 ^ (2 * k))
    rw [show 2 * k * (n + 1) = 2 * k + 2 * k * n by rw [Nat.mul_add]; omega, Nat.pow_add]
    have h3 : 2 ^ (2 * k) * (foldStep k n (x / 2 ^ (2 * k)) + 1) ≤ 2 ^ (2 * k) * 2 ^ (2 * k * n) :=
      Nat.mul_le_mul_left _ h2
    rw [Nat.mul_add] at h3
    omega

/-- First step: `v - ((v >> 1) & 0x55..)` is the pairwise sum. -/
theorem sub_mask_eq (n x : Nat) (hx : x < 2 ^ (2 * n)) :
    x - (x / 2 ^ 1 &&& fmask 1 n) = foldStep 1 n x ∧ (x / 2 ^ 1 &&& fmask 1 n) ≤ x := by
  have key : x = (x &&& fmask 1 n) + 2 * (x / 2 ^ 1 &&& fmask 1 n) := by
    induction n generalizing x with
    | zero => simp at hx; simp [hx]
    | succ n ih =>
      rw [and_fmask, and_fmask]
      have h : x / 2 ^ 1 / 2 ^ (2 * 1) = x / 2 ^ (2 * 1) / 2 ^ 1 := by
        rw [Nat.div_div_eq_div_mul, Nat.div_div_eq_div_mul, Nat.mul_comm]
      rw [h]
      have := ih (x / 2 ^ (2 * 1)) (by
        rw [show 2 * (n + 1) = 2 * 1 + 2 * n by omega, Nat.pow_add] at hx
        exact Nat.div_lt_of_lt_mul hx)
      omega
  rw [foldStep]
  omega

/-- Third step: with nibbles at most 4, `(v + (v >> 4)) & 0x0F..` is the pairwise sum. -/
theorem add_shift_and_eq (n x : Nat) (h : digLe (2 ^ 4) 4 (2 * n) x) :
    (x + x / 2 ^ 4) &&& fmask 4 n = foldStep 4 n x := by
  induction n generalizing x with
  | zero => simp [foldStep, fmask]
  | succ n ih =>
    rw [show 2 * (n + 1) = 2 * n + 1 + 1 by omega, digLe, digLe] at h
    obtain ⟨h1, h2, h3⟩ := h
    have e : x / 2 ^ 4 / 2 ^ 4 = x / 2 ^ (2 * 4) := by
      rw [Nat.div_div_eq_div_mul, ← Nat.pow_add]
    rw [e] at h3
    rw [and_fmask, foldStep_succ, ← ih _ h3]
    have hd2 : n = 0 ∨ x / 2 ^ (2 * 4) % 2 ^ 4 ≤ 4 := by
      cases n with
      | zero => exact Or.inl rfl
      | succ m =>
        rw [show 2 * (m + 1) = 2 * m + 1 + 1 by omega, digLe] at h3
        exact Or.inr h3.1
    have em : (x + x / 2 ^ 4) % 2 ^ 4 = x % 2 ^ 4 + x / 2 ^ 4 % 2 ^ 4 := by omega
    rw [em]
    rcases hd2 with rfl | hd2
    · simp [fmask]
    · have ed : (x + x / 2 ^ 4) / 2 ^ (2 * 4) = x / 2 ^ (2 * 4) + x / 2 ^ (2 * 4) / 2 ^ 4 := by omega
      rw [ed]

theorem digLe_mono (b c c' n x : Nat) (h : c ≤ c') (hd : digLe b c n x) : digLe b c' n x := by
  induction n generalizing x with
  | zero => trivial
  | succ n ih => exact ⟨Nat.le_trans hd.1 h, ih _ hd.2⟩

theorem mul_ones_key (a0 a1 a2 a3 a4 a5 a6 a7 : Nat) (h0 : a0 ≤ 8) (h1 : a1 ≤ 8) (h2 : a2 ≤ 8)
    (h3 : a3 ≤ 8) (h4 : a4 ≤ 8) (h5 : a5 ≤ 8) (h6 : a6 ≤ 8) (h7 : a7 ≤ 8) :
    (a0 + 256 * (a1 + 256 * (a2 + 256 * (a3 + 256 * (a4 + 256 * (a5 + 256 * (a6 + 256 * a7)))))))
      * 0x101010101010101 % 2 ^ 64 / 2 ^ 56 = a0 + a1 + a2 + a3 + a4 + a5 + a6 + a7 := by
  have e : (a0 + 256 * (a1 + 256 * (a2 + 256 * (a3 + 256 * (a4 + 256 * (a5 + 256 * (a6 + 256 * a7)))))))
      * 0x101010101010101 =
      (a0 + 256 * (a0 + a1) + 65536 * (a0 + a1 + a2) + 16777216 * (a0 + a1 + a2 + a3)
        + 4294967296 * (a0 + a1 + a2 + a3 + a4) + 1099511627776 * (a0 + a1 + a2 + a3 + a4 + a5)
        + 281474976710656 * (a0 + a1 + a2 + a3 + a4 + a5 + a6))
      + 72057594037927936 * (a0 + a1 + a2 + a3 + a4 + a5 + a6 + a7)
      + 18446744073709551616 * ((a1 + a2 + a3 + a4 + a5 + a6 + a7) + 256 * (a2 + a3 + a4 + a5 + a6 + a7)
        + 65536 * (a3 + a4 + a5 + a6 + a7) + 16777216 * (a4 + a5 + a6 + a7)
        + 4294967296 * (a5 + a6 + a7) + 1099511627776 * (a6 + a7) + 281474976710656 * a7) := by
    clear h0 h1 h2 h3 h4 h5 h6 h7
    omega
  rw [e]
  clear e
  have hl : (a0 + 256 * (a0 + a1) + 65536 * (a0 + a1 + a2) + 16777216 * (a0 + a1 + a2 + a3)
        + 4294967296 * (a0 + a1 + a2 + a3 + a4) + 1099511627776 * (a0 + a1 + a2 + a3 + a4 + a5)
        + 281474976710656 * (a0 + a1 + a2 + a3 + a4 + a5 + a6)) < 72057594037927936 := by omega
  have hs : a0 + a1 + a2 + a3 + a4 + a5 + a6 + a7 ≤ 64 := by omega
  generalize (a0 + 256 * (a0 + a1) + 65536 * (a0 + a1 + a2) + 16777216 * (a0 + a1 + a2 + a3)
        + 4294967296 * (a0 + a1 + a2 + a3 + a4) + 1099511627776 * (a0 + a1 + a2 + a3 + a4 + a5)
        + 281474976710656 * (a0 + a1 + a2 + a3 + a4 + a5 + a6)) = L at *
  generalize a0 + a1 + a2 + a3 + a4 + a5 + a6 + a7 = S at *
  rw [show (2:Nat) ^ 64 = 18446744073709551616 by decide, show (2:Nat)^56 = 72057594037927936 by decide,
    Nat.add_mul_mod_self_left, Nat.mod_eq_of_lt (by clear h0 h1 h2 h3 h4 h5 h6 h7; omega),
    Nat.add_mul_div_left _ _ (by decide), Nat.div_eq_of_lt hl, Nat.zero_add]

/-- Multiplying by `0x0101..` puts the byte sum in the top byte. -/
theorem mul_ones_top (x : Nat) (hx : x < 2 ^ 64) (h : digLe 256 8 8 x) :
    x * 0x101010101010101 % 2 ^ 64 / 2 ^ 56 = ds 256 8 x := by
  simp only [digLe] at h
  simp only [ds]
  obtain ⟨h0, h1, h2, h3, h4, h5, h6, h7, -⟩ := h
  have hx8 : x / 256 / 256 / 256 / 256 / 256 / 256 / 256 / 256 = 0 := by
    simp only [Nat.div_div_eq_div_mul]
    exact Nat.div_eq_of_lt hx
  have e : x = x % 256 + 256 * (x / 256 % 256 + 256 * (x / 256 / 256 % 256 + 256 *
      (x / 256 / 256 / 256 % 256 + 256 * (x / 256 / 256 / 256 / 256 % 256 + 256 *
      (x / 256 / 256 / 256 / 256 / 256 % 256 + 256 *
      (x / 256 / 256 / 256 / 256 / 256 / 256 % 256 + 256 *
      (x / 256 / 256 / 256 / 256 / 256 / 256 / 256 % 256))))))) := by
    conv => lhs; rw [← Nat.mod_add_div x 256, ← Nat.mod_add_div (x / 256) 256,
      ← Nat.mod_add_div (x / 256 / 256) 256, ← Nat.mod_add_div (x / 256 / 256 / 256) 256,
      ← Nat.mod_add_div (x / 256 / 256 / 256 / 256) 256,
      ← Nat.mod_add_div (x / 256 / 256 / 256 / 256 / 256) 256,
      ← Nat.mod_add_div (x / 256 / 256 / 256 / 256 / 256 / 256) 256,
      ← Nat.mod_add_div (x / 256 / 256 / 256 / 256 / 256 / 256 / 256) 256, hx8, Nat.mul_zero, Nat.add_zero]
  have := mul_ones_key _ _ _ _ _ _ _ _ h0 h1 h2 h3 h4 h5 h6 h7
  rw [← e] at this
  rw [this]
  simp only [Nat.add_assoc, Nat.add_zero]

/-- Binary digit sum = number of set bits. -/
theorem ds_two (n x : Nat) : ds 2 n x = (List.range n).countP (fun i => x.testBit i) := by
  induction n generalizing x with
  | zero => rfl
  | succ n ih =>
    rw [ds, ih, List.range_succ_eq_map, List.countP_cons, List.countP_map]
    have : ((fun i => x.testBit i) ∘ Nat.succ) = fun i => (x / 2).testBit i := by
      funext i; simp [Nat.testBit_div_two]
    rw [this]
    simp only [Nat.testBit_zero]
    rcases Nat.mod_two_eq_zero_or_one x with h | h <;> simp [h] <;> omega

end Verif.Bits
