import Verif.Model.Bits
/-! Helper lemmas for Morton codes: functions that are additive on disjoint bit patterns are
determined by single bits. -/
namespace Verif.Bits

/-- Two functions additive on disjoint patterns that agree on `0` and all single bits are equal. -/
theorem disj_ext {w} {α : Type} (op : α → α → α) (f g : BitVec w → α)
    (hf : ∀ a b, a &&& b = 0#w → f (a ||| b) = op (f a) (f b))
    (hg : ∀ a b, a &&& b = 0#w → g (a ||| b) = op (g a) (g b))
    (h0 : f 0#w = g 0#w)
    (h : ∀ i : Fin w, f (BitVec.twoPow w i) = g (BitVec.twoPow w i)) (v : BitVec w) :
    f v = g v := by
  have key : ∀ n, n ≤ w → ∀ v : BitVec w, (∀ i, n ≤ i → v.getLsbD i = false) → f v = g v := by
    intro n
    induction n with
    | zero =>
      intro _ v hv
      have : v = 0#w := by
        ext i hi
        rw [← BitVec.getLsbD_eq_getElem, hv i (Nat.zero_le _)]; simp
      rw [this, h0]
    | succ n ih =>
      intro hn v hv
      cases hb : v.getLsbD n with
      | false =>
        refine ih (by omega) v fun i hi => ?_
        rcases Nat.eq_or_lt_of_le hi with rfl | hlt
        · exact hb
        · exact hv i hlt
      | true =>
        have hnw : n < w := by omega
        have hd : (v &&& ~~~ BitVec.twoPow w n) &&& BitVec.twoPow w n = 0#w := by
          apply BitVec.eq_of_getLsbD_eq
          intro i hi
          simp [hi]
        have hsplit : v = (v &&& ~~~ BitVec.twoPow w n) ||| BitVec.twoPow w n := by
          apply BitVec.eq_of_getLsbD_eq
          intro i hi
          simp only [BitVec.getLsbD_or, BitVec.getLsbD_and, BitVec.getLsbD_not,
            BitVec.getLsbD_twoPow]
          by_cases e : n = i
          · subst e; simp [hb, hnw]
          · simp [e, hi]
        rw [hsplit, hf _ _ hd, hg _ _ hd, h ⟨n, by omega⟩, ih (by omega)]
        intro i hi
        simp only [BitVec.getLsbD_and, BitVec.getLsbD_not, BitVec.getLsbD_twoPow]
        rcases Nat.eq_or_lt_of_le hi with rfl | hlt
        · simp [hnw]
        · simp [hv i hlt]
  exact key w (Nat.le_refl _) v fun i hi => BitVec.getLsbD_of_ge _ _ hi

theorem or_and_distrib {w} (a b m : BitVec w) : (a ||| b) &&& m = (a &&& m) ||| (b &&& m) := by
  ext i hi
  simp only [BitVec.getElem_and, BitVec.getElem_or]
  cases a[i] <;> cases b[i] <;> cases m[i] <;> rfl

theorem or_or_comm {w} (a b c d : BitVec w) : (a ||| b) ||| (c ||| d) = (a ||| c) ||| (b ||| d) := by
  ext i hi
  simp only [BitVec.getElem_or]
  cases a[i] <;> cases b[i] <;> cases c[i] <;> rfl

theorem step_or {w} (a b m : BitVec w) (s : Nat) :
    ((a ||| b) ||| (a ||| b) <<< s) &&& m = ((a ||| a <<< s) &&& m) ||| ((b ||| b <<< s) &&& m) := by
  rw [BitVec.shiftLeft_or_distrib, or_or_comm, or_and_distrib]

theorem expandBits64_or (a b : BitVec 32) :
    expandBits64 (a ||| b) = expandBits64 a ||| expandBits64 b := by
  unfold expandBits64
  simp only [or_and_distrib a b, BitVec.zeroExtend_eq_setWidth, BitVec.setWidth_or, step_or]

/-- Every bit of `expand_bits_64`. -/
theorem getLsbD_expandBits64 (v : BitVec 32) (i : Nat) :
    (expandBits64 v).getLsbD i
      = (decide (i % 3 = 0) && decide (i / 3 < 21) && v.getLsbD (i / 3)) := by
  by_cases hi : i < 64
  · revert v
    have key : ∀ i : Fin 64, ∀ v : BitVec 32, (expandBits64 v).getLsbD i
        = (decide (i.val % 3 = 0) && decide (i.val / 3 < 21) && v.getLsbD (i.val / 3)) := by
      intro i v
      refine disj_ext (fun x y => x || y) (fun v => (expandBits64 v).getLsbD i)
        (fun v => decide (i.val % 3 = 0) && decide (i.val / 3 < 21) && v.getLsbD (i.val / 3))
        ?_ ?_ ?_ ?_ v
      · intro a b _; simp only [expandBits64_or, BitVec.getLsbD_or]
      · intro a b _
        simp only [BitVec.getLsbD_or]
        cases decide (i.val % 3 = 0) <;> cases decide (i.val / 3 < 21) <;> simp
      · revert i; decide +kernel
      · revert i; decide +kernel
    exact fun v => key ⟨i, hi⟩ v
  · rw [BitVec.getLsbD_of_ge _ _ (by omega)]
    have : ¬ (i % 3 = 0 ∧ i / 3 < 21) := by omega
    by_cases h1 : i % 3 = 0
    · have h2 : ¬ i / 3 < 21 := by omega
      simp only [h2, decide_false, Bool.and_false, Bool.false_and]
    · simp [h1]

theorem xor_and_distrib {w} (a b m : BitVec w) : (a ^^^ b) &&& m = (a &&& m) ^^^ (b &&& m) := by
  ext i hi
  simp only [BitVec.getElem_and, BitVec.getElem_xor]
  cases a[i] <;> cases b[i] <;> cases m[i] <;> rfl

theorem xor_xor_comm {w} (a b c d : BitVec w) : (a ^^^ b) ^^^ (c ^^^ d) = (a ^^^ c) ^^^ (b ^^^ d) := by
  ext i hi
  simp only [BitVec.getElem_xor]
  cases a[i] <;> cases b[i] <;> cases c[i] <;> simp

theorem step_xor {w} (a b m : BitVec w) (s : Nat) :
    ((a ^^^ b) ^^^ (a ^^^ b) >>> s) &&& m = ((a ^^^ a >>> s) &&& m) ^^^ ((b ^^^ b >>> s) &&& m) := by
  rw [BitVec.ushiftRight_xor_distrib, xor_xor_comm, xor_and_distrib]

theorem compactBits64_xor (a b : BitVec 64) :
    compactBits64 (a ^^^ b) = compactBits64 a ^^^ compactBits64 b := by
  unfold compactBits64
  simp only [xor_and_distrib a b, BitVec.truncate_eq_setWidth, BitVec.setWidth_xor, step_xor]

theorem compactBits32_xor (a b : BitVec 32) :
    compactBits32 (a ^^^ b) = compactBits32 a ^^^ compactBits32 b := by
  unfold compactBits32
  simp only [xor_and_distrib a b, step_xor]

theorem disj_or_eq_xor {w} (a b : BitVec w) (h : a &&& b = 0#w) : a ||| b = a ^^^ b := by
  apply BitVec.eq_of_getLsbD_eq
  intro i hi
  have := congrArg (fun v => v.getLsbD i) h
  simp only [BitVec.getLsbD_and, BitVec.getLsbD_zero] at this
  simp only [BitVec.getLsbD_or, BitVec.getLsbD_xor]
  cases h1 : a.getLsbD i <;> cases h2 : b.getLsbD i <;> simp_all

/-- Every bit of `compact_bits_64`. -/
theorem getLsbD_compactBits64 (v : BitVec 64) (i : Nat) :
    (compactBits64 v).getLsbD i = (decide (i < 21) && v.getLsbD (3 * i)) := by
  by_cases hi : i < 32
  · have key : ∀ i : Fin 32, ∀ v : BitVec 64, (compactBits64 v).getLsbD i
        = (decide (i.val < 21) && v.getLsbD (3 * i.val)) := by
      intro i v
      refine disj_ext (fun x y => x ^^ y) (fun v => (compactBits64 v).getLsbD i)
        (fun v => decide (i.val < 21) && v.getLsbD (3 * i.val)) ?_ ?_ ?_ ?_ v
      · intro a b h; simp only [disj_or_eq_xor a b h, compactBits64_xor, BitVec.getLsbD_xor]
      · intro a b h
        simp only [disj_or_eq_xor a b h, BitVec.getLsbD_xor]
        cases decide (i.val < 21) <;> simp
      · revert i; decide +kernel
      · revert i; decide +kernel
    exact key ⟨i, hi⟩ v
  · rw [BitVec.getLsbD_of_ge _ _ (by omega)]
    have : ¬ i < 21 := by omega
    simp [this]

/-- Every bit of `compact_bits_32`. -/
theorem getLsbD_compactBits32 (v : BitVec 32) (i : Nat) :
    (compactBits32 v).getLsbD i = (decide (i < 10) && v.getLsbD (3 * i)) := by
  by_cases hi : i < 32
  · have key : ∀ i : Fin 32, ∀ v : BitVec 32, (compactBits32 v).getLsbD i
        = (decide (i.val < 10) && v.getLsbD (3 * i.val)) := by
      intro i v
      refine disj_ext (fun x y => x ^^ y) (fun v => (compactBits32 v).getLsbD i)
        (fun v => decide (i.val < 10) && v.getLsbD (3 * i.val)) ?_ ?_ ?_ ?_ v
      · intro a b h; simp only [disj_or_eq_xor a b h, compactBits32_xor, BitVec.getLsbD_xor]
      · intro a b h
        simp only [disj_or_eq_xor a b h, BitVec.getLsbD_xor]
        cases decide (i.val < 10) <;> simp
      · revert i; decide +kernel
      · revert i; decide +kernel
    exact key ⟨i, hi⟩ v
  · rw [BitVec.getLsbD_of_ge _ _ (by omega)]
    have : ¬ i < 10 := by omega
    simp [this]

theorem expandBits32_eq_fin : ∀ v : Fin 1024,
    expandBits32 (BitVec.ofNat 32 v) = (expandBits64 (BitVec.ofNat 32 v)).setWidth 32 := by
  decide +kernel

/-- Every bit of `expand_bits_32` on 10-bit arguments. -/
theorem getLsbD_expandBits32 (v : BitVec 32) (hv : v.toNat < 1024) (i : Nat) :
    (expandBits32 v).getLsbD i = (decide (i % 3 = 0) && v.getLsbD (i / 3)) := by
  have hbit : 10 ≤ i / 3 → v.getLsbD (i / 3) = false := by
    intro h
    rw [← BitVec.testBit_toNat]
    apply Nat.testBit_lt_two_pow
    calc v.toNat < 2 ^ 10 := hv
      _ ≤ 2 ^ (i / 3) := Nat.pow_le_pow_right (by decide) (by omega)
  by_cases hi : i < 32
  · have := expandBits32_eq_fin ⟨v.toNat, hv⟩
    simp only [BitVec.ofNat_toNat, BitVec.setWidth_eq] at this
    rw [this, BitVec.getLsbD_setWidth, getLsbD_expandBits64]
    have : i / 3 < 21 := by omega
    simp [hi, this]
  · rw [BitVec.getLsbD_of_ge _ _ (by omega), hbit (by omega)]
    simp

/-- `a < b` is decided by the most significant differing bit. -/
theorem lt_iff_topBit (a b : Nat) :
    a < b ↔ ∃ i, a.testBit i = false ∧ b.testBit i = true ∧ ∀ j, i < j → a.testBit j = b.testBit j := by
  induction b using Nat.strongRecOn generalizing a with
  | _ b ih =>
    constructor
    · intro h
      rcases Nat.lt_or_ge (a / 2) (b / 2) with hlt | hge
      · obtain ⟨i, h1, h2, h3⟩ := (ih (b / 2) (by omega) (a / 2)).1 hlt
        refine ⟨i + 1, ?_, ?_, ?_⟩
        · rw [← Nat.testBit_div_two]; exact h1
        · rw [← Nat.testBit_div_two]; exact h2
        · intro j hj
          have := h3 (j - 1) (by omega)
          rw [Nat.testBit_div_two, Nat.testBit_div_two, Nat.sub_add_cancel (by omega)] at this
          exact this
      · have he : a / 2 = b / 2 := by omega
        refine ⟨0, ?_, ?_, ?_⟩
        · simp; omega
        · simp; omega
        · intro j hj
          obtain ⟨j, rfl⟩ : ∃ k, j = k + 1 := ⟨j - 1, by omega⟩
          rw [← Nat.testBit_div_two, ← Nat.testBit_div_two, he]
    · rintro ⟨i, h1, h2, h3⟩
      cases i with
      | zero =>
        have he : a / 2 = b / 2 := by
          apply Nat.eq_of_testBit_eq
          intro j
          rw [Nat.testBit_div_two, Nat.testBit_div_two]
          exact h3 _ (by omega)
        simp at h1 h2
        omega
      | succ i =>
        have hb : b ≠ 0 := by rintro rfl; simp at h2
        have := (ih (b / 2) (by omega) (a / 2)).2 ⟨i, by rw [Nat.testBit_div_two]; exact h1,
          by rw [Nat.testBit_div_two]; exact h2, fun j hj => by
            rw [Nat.testBit_div_two, Nat.testBit_div_two]; exact h3 _ (by omega)⟩
        omega

theorem getLsbD_eq_false_of_lt {w} (x : BitVec w) (k i : Nat) (h : x.toNat < 2 ^ k) (hi : k ≤ i) :
    x.getLsbD i = false := by
  rw [← BitVec.testBit_toNat]
  exact Nat.testBit_lt_two_pow (Nat.lt_of_lt_of_le h (Nat.pow_le_pow_right (by decide) hi))

end Verif.Bits
