import Verif.Proof.Morton
/-! # C05: 3D Morton codes interleave the coordinate bits -/
namespace Verif.Bits

/-- Coordinate number `j` (0 = x, 1 = y, 2 = z). -/
def coord (x y z : BitVec 32) : Nat → BitVec 32
  | 0 => x
  | 1 => y
  | _ => z

/-- C05 (64-bit): bit `i` of the code is bit `i/3` of coordinate `2 - i%3`, and there is no bit at
position 63. -/
theorem morton64_getLsbD (x y z : BitVec 32) (i : Nat) :
    (morton64 x y z).getLsbD i =
      (decide (i < 63) && (coord x y z (2 - i % 3)).getLsbD (i / 3)) := by
  simp only [morton64, BitVec.getLsbD_or, BitVec.getLsbD_shiftLeft, getLsbD_expandBits64]
  rcases (by omega : i % 3 = 0 ∨ i % 3 = 1 ∨ i % 3 = 2) with h | h | h
  · have h1 : ¬ (i - 2) % 3 = 0 ∨ i < 2 := by omega
    have h2 : ¬ (i - 1) % 3 = 0 ∨ i < 1 := by omega
    have h3 : i / 3 < 21 ↔ i < 63 := by omega
    rcases h1 with h1 | h1 <;> rcases h2 with h2 | h2 <;> simp [h, h1, h2, h3, coord]
  · have h1 : ¬ (i - 2) % 3 = 0 ∨ i < 2 := by omega
    have h2 : (i - 1) % 3 = 0 := by omega
    have h2' : ¬ i < 1 := by omega
    have h3 : (i - 1) / 3 = i / 3 := by omega
    have h4 : i / 3 < 21 ↔ i < 63 := by omega
    have h5 : i < 63 → i < 64 := by omega
    rcases h1 with h1 | h1 <;> simp [h, h1, h2, h2', h3, h4, coord] <;>
      by_cases h6 : i < 63 <;> simp [h6, h5]
  · have h1 : (i - 2) % 3 = 0 := by omega
    have h1' : ¬ i < 2 := by omega
    have h2 : ¬ (i - 1) % 3 = 0 := by omega
    have h3 : (i - 2) / 3 = i / 3 := by omega
    have h4 : i / 3 < 21 ↔ i < 63 := by omega
    have h5 : i < 63 → i < 64 := by omega
    simp [h, h1, h1', h2, h3, h4, coord]
    by_cases h6 : i < 63 <;> simp [h6, h5]

/-- C05 (32-bit): same statement for 10-bit coordinates. -/
theorem morton32_getLsbD (x y z : BitVec 32) (hx : x.toNat < 1024) (hy : y.toNat < 1024)
    (hz : z.toNat < 1024) (i : Nat) :
    (morton32 x y z).getLsbD i =
      (decide (i < 30) && (coord x y z (2 - i % 3)).getLsbD (i / 3)) := by
  simp only [morton32, BitVec.getLsbD_or, BitVec.getLsbD_shiftLeft,
    getLsbD_expandBits32 _ hx, getLsbD_expandBits32 _ hy, getLsbD_expandBits32 _ hz]
  have fx := getLsbD_eq_false_of_lt x 10 (i / 3) hx
  have fy := getLsbD_eq_false_of_lt y 10 (i / 3) hy
  have fz := getLsbD_eq_false_of_lt z 10 (i / 3) hz
  rcases (by omega : i % 3 = 0 ∨ i % 3 = 1 ∨ i % 3 = 2) with h | h | h
  · have h1 : ¬ (i - 2) % 3 = 0 ∨ i < 2 := by omega
    have h2 : ¬ (i - 1) % 3 = 0 ∨ i < 1 := by omega
    by_cases h6 : i < 30
    · rcases h1 with h1 | h1 <;> rcases h2 with h2 | h2 <;> simp [h, h1, h2, h6, coord]
    · rcases h1 with h1 | h1 <;> rcases h2 with h2 | h2 <;>
        simp [h, h1, h2, h6, coord, fz (by omega)]
  · have h1 : ¬ (i - 2) % 3 = 0 ∨ i < 2 := by omega
    have h2 : (i - 1) % 3 = 0 := by omega
    have h2' : ¬ i < 1 := by omega
    have h3 : (i - 1) / 3 = i / 3 := by omega
    by_cases h6 : i < 30
    · have h5 : i < 32 := by omega
      rcases h1 with h1 | h1 <;> simp [h, h1, h2, h2', h3, h6, h5, coord]
    · rcases h1 with h1 | h1 <;> simp [h, h1, h2, h2', h3, h6, coord, fy (by omega)]
  · have h1 : (i - 2) % 3 = 0 := by omega
    have h1' : ¬ i < 2 := by omega
    have h2 : ¬ (i - 1) % 3 = 0 := by omega
    have h3 : (i - 2) / 3 = i / 3 := by omega
    by_cases h6 : i < 30
    · have h5 : i < 32 := by omega
      simp [h, h1, h1', h2, h3, h6, h5, coord]
    · simp [h, h1, h1', h2, h3, h6, coord, fx (by omega)]

/-- C05: the 32-bit restriction is needed, one step outside the usable range two different grid
points share a code. -/
theorem morton32_out_of_range_collides :
    ∃ x y z x' y' z' : BitVec 32, x.toNat ≤ 1024 ∧ x'.toNat ≤ 1024 ∧ y.toNat < 1024 ∧
      y'.toNat < 1024 ∧ z.toNat < 1024 ∧ z'.toNat < 1024 ∧
      (x, y, z) ≠ (x', y', z') ∧ morton32 x y z = morton32 x' y' z' :=
  ⟨1024#32, 0#32, 0#32, 0#32, 0#32, 0#32, by decide⟩

/-- C05: expanding then compacting gives back the low 21 bits. -/
theorem compact_expand64 (v : BitVec 32) : compactBits64 (expandBits64 v) = v &&& 0x1fffff#32 := by
  apply BitVec.eq_of_getLsbD_eq
  intro i hi
  rw [getLsbD_compactBits64, getLsbD_expandBits64, BitVec.getLsbD_and]
  have h1 : 3 * i % 3 = 0 := by omega
  have h2 : 3 * i / 3 = i := by omega
  have h3 : ∀ i : Fin 32, (0x1fffff#32).getLsbD i = decide (i.val < 21) := by decide
  rw [h1, h2, h3 ⟨i, hi⟩]
  by_cases h : i < 21 <;> simp [h]

/-- C05: expanding then compacting gives back a 10-bit value. -/
theorem compact_expand32 (v : BitVec 32) (hv : v.toNat < 1024) :
    compactBits32 (expandBits32 v) = v := by
  apply BitVec.eq_of_getLsbD_eq
  intro i hi
  rw [getLsbD_compactBits32, getLsbD_expandBits32 _ hv]
  have h1 : 3 * i % 3 = 0 := by omega
  have h2 : 3 * i / 3 = i := by omega
  rw [h1, h2]
  by_cases h : i < 10
  · simp [h]
  · simp [h, getLsbD_eq_false_of_lt v 10 i hv (by omega)]

/-- C05: the 64-bit code is injective on the usable grid. -/
theorem morton64_injective (x y z x' y' z' : BitVec 32)
    (hx : x.toNat < 2 ^ 21) (hy : y.toNat < 2 ^ 21) (hz : z.toNat < 2 ^ 21)
    (hx' : x'.toNat < 2 ^ 21) (hy' : y'.toNat < 2 ^ 21) (hz' : z'.toNat < 2 ^ 21)
    (h : morton64 x y z = morton64 x' y' z') : x = x' ∧ y = y' ∧ z = z' := by
  have key : ∀ j, j < 3 → ∀ k, k < 21 →
      (coord x y z j).getLsbD k = (coord x' y' z' j).getLsbD k := by
    intro j hj k hk
    have := congrArg (fun v => v.getLsbD (3 * k + (2 - j))) h
    simp only [morton64_getLsbD] at this
    have e1 : 3 * k + (2 - j) < 63 := by omega
    have e2 : 2 - (3 * k + (2 - j)) % 3 = j := by omega
    have e3 : (3 * k + (2 - j)) / 3 = k := by omega
    rw [e2, e3] at this
    simpa [e1] using this
  have ext : ∀ a b : BitVec 32, a.toNat < 2 ^ 21 → b.toNat < 2 ^ 21 →
      (∀ k, k < 21 → a.getLsbD k = b.getLsbD k) → a = b := by
    intro a b ha hb hab
    apply BitVec.eq_of_getLsbD_eq
    intro i _
    by_cases hi : i < 21
    · exact hab i hi
    · rw [getLsbD_eq_false_of_lt a 21 i ha (by omega), getLsbD_eq_false_of_lt b 21 i hb (by omega)]
  exact ⟨ext x x' hx hx' (key 0 (by decide)), ext y y' hy hy' (key 1 (by decide)),
    ext z z' hz hz' (key 2 (by decide))⟩

/-- C05: the 32-bit code is injective on the usable grid. -/
theorem morton32_injective (x y z x' y' z' : BitVec 32)
    (hx : x.toNat < 1024) (hy : y.toNat < 1024) (hz : z.toNat < 1024)
    (hx' : x'.toNat < 1024) (hy' : y'.toNat < 1024) (hz' : z'.toNat < 1024)
    (h : morton32 x y z = morton32 x' y' z') : x = x' ∧ y = y' ∧ z = z' := by
  have key : ∀ j, j < 3 → ∀ k, k < 10 →
      (coord x y z j).getLsbD k = (coord x' y' z' j).getLsbD k := by
    intro j hj k hk
    have := congrArg (fun v => v.getLsbD (3 * k + (2 - j))) h
    simp only [morton32_getLsbD x y z hx hy hz, morton32_getLsbD x' y' z' hx' hy' hz'] at this
    have e1 : 3 * k + (2 - j) < 30 := by omega
    have e2 : 2 - (3 * k + (2 - j)) % 3 = j := by omega
    have e3 : (3 * k + (2 - j)) / 3 = k := by omega
    rw [e2, e3] at this
    simpa [e1] using this
  have ext : ∀ a b : BitVec 32, a.toNat < 1024 → b.toNat < 1024 →
      (∀ k, k < 10 → a.getLsbD k = b.getLsbD k) → a = b := by
    intro a b ha hb hab
    apply BitVec.eq_of_getLsbD_eq
    intro i _
    by_cases hi : i < 10
    · exact hab i hi
    · rw [getLsbD_eq_false_of_lt a 10 i ha (by omega), getLsbD_eq_false_of_lt b 10 i hb (by omega)]
  exact ⟨ext x x' hx hx' (key 0 (by decide)), ext y y' hy hy' (key 1 (by decide)),
    ext z z' hz hz' (key 2 (by decide))⟩

/-- Replace coordinate `j` of the triple. -/
def setCoord (j : Nat) (v : BitVec 32) (x y z : BitVec 32) : BitVec 32 × BitVec 32 × BitVec 32 :=
  match j with
  | 0 => (v, y, z)
  | 1 => (x, v, z)
  | _ => (x, y, v)

theorem coord_setCoord (j k : Nat) (hj : j < 3) (hk : k < 3) (v x y z : BitVec 32) :
    coord (setCoord j v x y z).1 (setCoord j v x y z).2.1 (setCoord j v x y z).2.2 k
      = if k = j then v else coord x y z k := by
  rcases (by omega : j = 0 ∨ j = 1 ∨ j = 2) with rfl | rfl | rfl <;>
  rcases (by omega : k = 0 ∨ k = 1 ∨ k = 2) with rfl | rfl | rfl <;> rfl

/-- C05: increasing one coordinate (inside the usable range) increases the 64-bit code. -/
theorem morton64_strictMono (j : Nat) (hj : j < 3) (v v' x y z : BitVec 32)
    (hv' : v'.toNat < 2 ^ 21) (h : v < v') :
    (let c := setCoord j v x y z; morton64 c.1 c.2.1 c.2.2) <
    (let c := setCoord j v' x y z; morton64 c.1 c.2.1 c.2.2) := by
  rw [BitVec.lt_def] at h ⊢
  obtain ⟨k, h1, h2, h3⟩ := (lt_iff_topBit _ _).1 h
  rw [BitVec.testBit_toNat] at h1 h2
  have hk : k < 21 := by
    rcases Nat.lt_or_ge k 21 with h | h
    · exact h
    · rw [getLsbD_eq_false_of_lt v' 21 k hv' h] at h2; cases h2
  rw [lt_iff_topBit]
  refine ⟨3 * k + (2 - j), ?_, ?_, ?_⟩
  · rw [BitVec.testBit_toNat, morton64_getLsbD]
    have e2 : 2 - (3 * k + (2 - j)) % 3 = j := by omega
    have e3 : (3 * k + (2 - j)) / 3 = k := by omega
    rw [e2, e3, coord_setCoord j j hj hj, if_pos rfl, h1, Bool.and_false]
  · rw [BitVec.testBit_toNat, morton64_getLsbD]
    have e1 : 3 * k + (2 - j) < 63 := by omega
    have e2 : 2 - (3 * k + (2 - j)) % 3 = j := by omega
    have e3 : (3 * k + (2 - j)) / 3 = k := by omega
    rw [e2, e3, coord_setCoord j j hj hj, if_pos rfl, h2]
    simp [e1]
  · intro i hi
    rw [BitVec.testBit_toNat, BitVec.testBit_toNat, morton64_getLsbD, morton64_getLsbD,
      coord_setCoord j _ hj (by omega), coord_setCoord j _ hj (by omega)]
    by_cases e : 2 - i % 3 = j
    · rw [if_pos e, if_pos e, ← BitVec.testBit_toNat, ← BitVec.testBit_toNat, h3 _ (by omega)]
    · rw [if_neg e, if_neg e]

/-- C05: increasing one coordinate (inside the usable range) increases the 32-bit code. -/
theorem morton32_strictMono (j : Nat) (hj : j < 3) (v v' x y z : BitVec 32)
    (hx : x.toNat < 1024) (hy : y.toNat < 1024) (hz : z.toNat < 1024)
    (hv' : v'.toNat < 1024) (h : v < v') :
    (let c := setCoord j v x y z; morton32 c.1 c.2.1 c.2.2) <
    (let c := setCoord j v' x y z; morton32 c.1 c.2.1 c.2.2) := by
  rw [BitVec.lt_def] at h ⊢
  have hv : v.toNat < 1024 := by omega
  have bnd : ∀ u : BitVec 32, u.toNat < 1024 → (setCoord j u x y z).1.toNat < 1024 ∧
      (setCoord j u x y z).2.1.toNat < 1024 ∧ (setCoord j u x y z).2.2.toNat < 1024 := by
    intro u hu
    rcases (by omega : j = 0 ∨ j = 1 ∨ j = 2) with rfl | rfl | rfl <;>
      simp [setCoord, hu, hx, hy, hz]
  obtain ⟨b1, b2, b3⟩ := bnd v hv
  obtain ⟨b1', b2', b3'⟩ := bnd v' hv'
  obtain ⟨k, h1, h2, h3⟩ := (lt_iff_topBit _ _).1 h
  rw [BitVec.testBit_toNat] at h1 h2
  have hk : k < 10 := by
    rcases Nat.lt_or_ge k 10 with h | h
    · exact h
    · rw [getLsbD_eq_false_of_lt v' 10 k hv' h] at h2; cases h2
  rw [lt_iff_topBit]
  refine ⟨3 * k + (2 - j), ?_, ?_, ?_⟩
  · rw [BitVec.testBit_toNat, morton32_getLsbD _ _ _ b1 b2 b3]
    have e2 : 2 - (3 * k + (2 - j)) % 3 = j := by omega
    have e3 : (3 * k + (2 - j)) / 3 = k := by omega
    rw [e2, e3, coord_setCoord j j hj hj, if_pos rfl, h1, Bool.and_false]
  · rw [BitVec.testBit_toNat, morton32_getLsbD _ _ _ b1' b2' b3']
    have e1 : 3 * k + (2 - j) < 30 := by omega
    have e2 : 2 - (3 * k + (2 - j)) % 3 = j := by omega
    have e3 : (3 * k + (2 - j)) / 3 = k := by omega
    rw [e2, e3, coord_setCoord j j hj hj, if_pos rfl, h2]
    simp [e1]
  · intro i hi
    rw [BitVec.testBit_toNat, BitVec.testBit_toNat, morton32_getLsbD _ _ _ b1 b2 b3,
      morton32_getLsbD _ _ _ b1' b2' b3',
      coord_setCoord j _ hj (by omega), coord_setCoord j _ hj (by omega)]
    by_cases e : 2 - i % 3 = j
    · rw [if_pos e, if_pos e, ← BitVec.testBit_toNat, ← BitVec.testBit_toNat, h3 _ (by omega)]
    · rw [if_neg e, if_neg e]

example : morton64 5#32 3#32 6#32 = 0b101011110#64 := by decide
example : morton32 5#32 3#32 6#32 = 0b101011110#32 := by decide
example : (5#32).toNat < 1024 ∧ (1023#32).toNat < 1024 ∧ 5#32 < 1023#32 := by decide

end Verif.Bits
