import Verif.Proof.TileIter

/-!
Iterators over tiled memory (C104).
-/
namespace Verif.TileIter

/-! ## aosoa_iterator -/

/-- Over a `TileVector` of tiles of a power of two, the components of the iterator at element `i` are the cells of the channels from `chn` on, as long as
the offsets fit 32 bits. -/
theorem tiles_exact_partial {k : Nat} (hk : k < 32) (ptr : Nat) (i chn nch : BitVec 32) (extent : Nat) (hc : chn.toNat * 2 ^ k < 2 ^ 32)
    (h : i.toNat / 2 ^ k * nch.toNat * 2 ^ k + i.toNat % 2 ^ k < 2 ^ 32) :
    (aosoa ptr i (BitVec.ofNat 32 (2 ^ k)) chn nch).deref extent =
      (List.range extent).map fun d => ptr + TileVector.addr (2 ^ k) nch.toNat (chn.toNat + d) i.toNat := by
  have hlt : 2 ^ k < 2 ^ 32 := Nat.pow_lt_pow_right (by omega) hk
  have hp := Nat.two_pow_pos k
  have ht : (BitVec.ofNat 32 (2 ^ k)).toNat = 2 ^ k := by rw [BitVec.toNat_ofNat, Nat.mod_eq_of_lt hlt]
  have hb : (bitCount32 (BitVec.ofNat 32 (2 ^ k))).toNat = k := by
    rw [bitCount32, ht, bitCount_pow, BitVec.toNat_ofNat, Nat.mod_eq_of_lt (by omega)]
  have hm : (BitVec.ofNat 32 (2 ^ k) - 1#32).toNat = 2 ^ k - 1 := by
    rw [BitVec.toNat_sub, ht]
    simp only [BitVec.toNat_ofNat]
    omega
  have hm1 : (BitVec.ofNat 32 (2 ^ k) - 1#32 + 1#32).toNat = 2 ^ k := by
    rw [BitVec.sub_add_cancel, ht]
  have hcm : (chn * BitVec.ofNat 32 (2 ^ k)).toNat = chn.toNat * 2 ^ k := by
    rw [BitVec.toNat_mul, ht, Nat.mod_eq_of_lt hc]
  have ho := tile_offset i nch _ hm h
  simp only [Iter.deref, aosoa, Iter.offset, hb]
  apply List.map_congr_left
  intro d _
  rw [hcm, ho, hm1, TileVector.addr]
  ring

example : (aosoa 1000 37#32 32#32 2#32 5#32).deref 3 = [1000 + TileVector.addr 32 5 2 37, 1000 + TileVector.addr 32 5 3 37, 1000 + TileVector.addr 32 5 4 37] := by
  decide +kernel

/-- Over an array of structures, the components at element `i` are those of the `i`-th structure, as long as the offsets fit 32 bits. -/
theorem structures_exact_partial (extent : BitVec 32) (ptr : Nat) (i : BitVec 32) (h : i.toNat * extent.toNat < 2 ^ 32) :
    (aos extent ptr i).deref extent.toNat = (List.range extent.toNat).map fun d => ptr + (i.toNat * extent.toNat + d) := by
  have ho : (aos extent ptr i).offset.toNat = i.toNat * extent.toNat := by
    have := tile_offset (k := 0) i extent 0#32 (by simp) (by simpa [Nat.mod_one] using h)
    simpa [Iter.offset, aos, Nat.mod_one] using this
  simp only [Iter.deref, ho]
  apply List.map_congr_left
  intro d _
  simp [aos, Nat.add_assoc]

example : (aos 3 100 7).deref 3 = [121, 122, 123] := by decide +kernel

/-- Offsets that do not fit 32 bits wrap, although elements and channels do fit: in a `TileVector` with 2^30 + 1 elements, tiles of 32 and 4 channels,
the last element is the same cell as the first. -/
theorem tiles_violated : (aosoa 0 (BitVec.ofNat 32 (2 ^ 30)) 32 0 4).deref 1 = (aosoa 0 0 32 0 4).deref 1 ∧
    TileVector.addr 32 4 0 (2 ^ 30) ≠ TileVector.addr 32 4 0 0 := by decide +kernel

/-- Advancing by the distance to an iterator of the same range gives an equal iterator, which points to the same place. -/
theorem advance_exact (a b : Iter) (h : a.base = b.base ∧ a.bits = b.bits ∧ a.mask = b.mask ∧ a.nch = b.nch) :
    a.advance (a.distance b) = b ∧ (a.equal b = true ↔ a = b) ∧ ∀ m n, (a.advance m).advance n = a.advance (m + n) := by
  obtain ⟨h1, h2, h3, h4⟩ := h
  refine ⟨?_, ?_, fun m n => by simp only [Iter.advance, BitVec.add_assoc]⟩
  · cases a; cases b
    simp only at h1 h2 h3 h4
    subst h1 h2 h3 h4
    simp only [Iter.advance, Iter.distance, Iter.mk.injEq, true_and, and_true]
    rw [BitVec.add_comm, BitVec.sub_add_cancel]
  · cases a; cases b
    simp only at h1 h2 h3 h4
    subst h1 h2 h3 h4
    simp only [Iter.equal, beq_self_eq_true, Bool.true_and, beq_iff_eq, Iter.mk.injEq, true_and, and_true]
    exact eq_comm

/-! ## AccessorAoSoA -/

/-- For elements whose size is a power of two, the accessor gives the first byte of the cell of its channel. -/
theorem accessor_exact_partial {k j : Nat} (hk : k < 16) (ptr chnCnt chnNo : Nat) (i : BitVec 64) (hn : chnCnt < 2 ^ 16)
    (h : (i.toNat / 2 ^ k * chnCnt * 2 ^ k + i.toNat % 2 ^ k) * 2 ^ j < 2 ^ 64) :
    (accAosoa ptr (2 ^ j) (2 ^ k) chnCnt chnNo).at i = ptr + 2 ^ j * TileVector.addr (2 ^ k) chnCnt chnNo i.toNat := by
  have hp := Nat.two_pow_pos j
  have h' : i.toNat / 2 ^ k * chnCnt * 2 ^ k + i.toNat % 2 ^ k < 2 ^ 64 := Nat.lt_of_le_of_lt (Nat.le_mul_of_pos_right _ hp) h
  have hc : (BitVec.ofNat 64 chnCnt).toNat = chnCnt := by rw [BitVec.toNat_ofNat, Nat.mod_eq_of_lt (by omega)]
  have hm : (BitVec.ofNat 64 (2 ^ k - 1)).toNat = 2 ^ k - 1 := by
    have : 2 ^ k < 2 ^ 16 := Nat.pow_lt_pow_right (by omega) hk
    rw [BitVec.toNat_ofNat, Nat.mod_eq_of_lt (by omega)]
  have ho := tile_offset i (BitVec.ofNat 64 chnCnt) _ hm (by rw [hc]; exact h')
  rw [hc] at ho
  simp only [Acc.at, accAosoa, bitCount_pow]
  rw [BitVec.toNat_shiftLeft, ho, Nat.shiftLeft_eq, Nat.mod_eq_of_lt h, TileVector.addr]
  ring

example : (accAosoa 1000 4 32 5 2).at 37 = 1000 + 4 * TileVector.addr 32 5 2 37 := by decide +kernel

/-- For structures of channels of a power of two bytes, the accessor gives the first byte of its channel of the `i`-th structure. -/
theorem accessor_structures_partial {j : Nat} (ptr chnCnt chnNo : Nat) (i : BitVec 64) (hn : chnCnt < 2 ^ 16) (h : i.toNat * chnCnt * 2 ^ j < 2 ^ 64) :
    (accAos ptr (2 ^ j) chnCnt chnNo).at i = ptr + 2 ^ j * (i.toNat * chnCnt + chnNo) := by
  have hp := Nat.two_pow_pos j
  have h' : i.toNat * chnCnt < 2 ^ 64 := Nat.lt_of_le_of_lt (Nat.le_mul_of_pos_right _ hp) h
  have hc : (BitVec.ofNat 64 chnCnt).toNat = chnCnt := by rw [BitVec.toNat_ofNat, Nat.mod_eq_of_lt (by omega)]
  have ho := tile_offset (k := 0) i (BitVec.ofNat 64 chnCnt) 0#64 (by simp) (by rw [hc]; simpa [Nat.mod_one] using h')
  rw [hc] at ho
  simp only [Nat.pow_zero, Nat.div_one, Nat.mul_one, Nat.mod_one, Nat.add_zero] at ho
  simp only [Acc.at, accAos, bitCount_pow]
  rw [BitVec.toNat_shiftLeft]
  show ptr + chnNo * 2 ^ j + ((((i >>> 0) * BitVec.ofNat 64 chnCnt) <<< 0 ||| i &&& 0#64).toNat <<< j) % 2 ^ 64 = _
  rw [ho, Nat.shiftLeft_eq, Nat.mod_eq_of_lt h]
  ring

/-- For elements of 12 bytes the accessor goes 16 bytes from one to the next. -/
theorem accessor_violated : (accAos 0 12 1 0).at 1 = 16 := by decide +kernel

/-! ## Iterators of TileVector over smaller values -/

/-- For a segment within the elements, the value of element `i` lies within the row of the channel in the tile of `i`. -/
theorem small_inside {S L t : Nat} (ht : 0 < t) (hL : 0 < L) (base i chn nch : Nat) {segNo : Nat} (hseg : (segNo + 1) * t ≤ S) :
    ∃ it a, small S L t base i segNo chn nch = some it ∧ it.deref S L t 1 = [a] ∧
      base + S * TileVector.addr L nch chn (i / L * L) ≤ a ∧ a + t ≤ base + S * (TileVector.addr L nch chn (i / L * L) + L) := by
  have hlt : segNo < numSegments S L t := (Nat.le_div_iff_mul_le ht).2 (Nat.le_trans hseg (Nat.le_mul_of_pos_right S hL))
  have hr : TileVector.addr L nch chn (i / L * L) = (i / L * nch + chn) * L := by
    rw [TileVector.addr, Nat.mul_div_cancel _ hL, Nat.mul_mod_left, Nat.add_zero]
  have hp := place_lt (i := i) hL hseg
  refine ⟨_, _, if_neg (Nat.not_le.2 hlt), rfl, ?_, ?_⟩
  · rw [hr, Nat.mul_comm S]
    exact Nat.le_add_right_of_le (Nat.le_refl _)
  · rw [hr]
    have h2 : S * ((i / L * nch + chn) * L + L) = (i / L * nch + chn) * L * S + S * L := by ring
    rw [h2]
    show base + (i / L * nch + chn) * L * S + t * (segNo * L + i % L + 0 * (L * numSegments S L t)) + t ≤ _
    rw [Nat.zero_mul, Nat.add_zero]
    omega

example : ∃ it, small 8 32 4 1000 37 1 2 5 = some it ∧ it.deref 8 32 4 1 = [1000 + 8 * TileVector.addr 32 5 2 32 + 4 * (32 + 5)] :=
  ⟨⟨1000, 37, 32, 2, 5⟩, by decide +kernel, by decide +kernel⟩

/-- Values of one channel for different elements or segments have no byte in common. -/
theorem small_separate {S L t : Nat} (hL : 0 < L) {base i i' chn nch segNo segNo' a a' : Nat} {it it' : Small} (hc : chn < nch)
    (hseg : (segNo + 1) * t ≤ S) (hseg' : (segNo' + 1) * t ≤ S) (h : small S L t base i segNo chn nch = some it)
    (h' : small S L t base i' segNo' chn nch = some it') (ha : it.deref S L t 1 = [a]) (ha' : it'.deref S L t 1 = [a'])
    (hne : (i, segNo) ≠ (i', segNo')) : a + t ≤ a' ∨ a' + t ≤ a := by
  rw [small_first h ha, small_first h' ha']
  have p := place_lt (i := i) hL hseg
  have p' := place_lt (i := i') hL hseg'
  rcases Nat.lt_trichotomy (i / L) (i' / L) with hq | hq | hq
  · left
    have := rows_apart (y := t * (segNo' * L + i' % L)) hc hq p
    omega
  · rw [hq]
    rcases Nat.lt_trichotomy (segNo * L + i % L) (segNo' * L + i' % L) with hx | hx | hx
    · left
      have : t * (segNo * L + i % L + 1) ≤ t * (segNo' * L + i' % L) := Nat.mul_le_mul_left _ hx
      have e : t * (segNo * L + i % L + 1) = t * (segNo * L + i % L) + t := by ring
      omega
    · exfalso
      have hm : i % L = i' % L := by
        have := congrArg (· % L) hx
        simpa [Nat.mul_comm, Nat.mul_add_mod] using this
      have hs : segNo = segNo' := by
        rw [hm] at hx
        exact Nat.eq_of_mul_eq_mul_right hL (by omega)
      have hi : i = i' := by rw [← Nat.div_add_mod i L, ← Nat.div_add_mod i' L, hq, hm]
      exact hne (by rw [hi, hs])
    · right
      have : t * (segNo' * L + i' % L + 1) ≤ t * (segNo * L + i % L) := Nat.mul_le_mul_left _ hx
      have e : t * (segNo' * L + i' % L + 1) = t * (segNo' * L + i' % L) + t := by ring
      omega
  · right
    have := rows_apart (y := t * (segNo * L + i % L)) hc hq p'
    omega

/-- The number of segments that the constructor checks against is too large by the number of elements of a tile: with elements of 8 bytes in tiles of 32
and values of 4 bytes, segment 2 is in the next channel. -/
theorem small_segment_violated : ∃ it, small 8 32 4 0 0 2 0 2 = some it ∧ it.deref 8 32 4 1 = [8 * TileVector.addr 32 2 1 0] :=
  ⟨⟨0, 0, 64, 0, 2⟩, by decide +kernel, by decide +kernel⟩

/-- The components of a vector of smaller values are not in successive channels, but as many channels apart as a tile has elements. -/
theorem small_components {S L t : Nat} (hd : t ∣ S * L) {base i segNo chn nch : Nat} {it : Small} (extent : Nat)
    (h : small S L t base i segNo chn nch = some it) :
    it.deref S L t extent = (List.range extent).map fun d => base + S * TileVector.addr L nch (chn + d * L) (i / L * L) + t * (segNo * L + i % L) := by
  have hn : t * numSegments S L t = S * L := Nat.mul_div_cancel' hd
  rw [small] at h
  split at h
  · cases h
  · cases h
    apply List.map_congr_left
    intro d _
    have hr : TileVector.addr L nch (chn + d * L) (i / L * L) = (i / L * nch + (chn + d * L)) * L := by
      rcases Nat.eq_zero_or_pos L with h0 | hL
      · subst h0; simp [TileVector.addr]
      · rw [TileVector.addr, Nat.mul_div_cancel _ hL, Nat.mul_mod_left, Nat.add_zero]
    rw [hr]
    show base + (i / L * nch + chn) * L * S + t * (segNo * L + i % L + d * (L * numSegments S L t)) = _
    have e : t * (segNo * L + i % L + d * (L * numSegments S L t)) = t * (segNo * L + i % L) + d * L * (t * numSegments S L t) := by ring
    rw [e, hn]
    ring

/-- With elements of 8 bytes in tiles of 32, four channels and values of 4 bytes, the second component for the channels 0 and 1 of the first tile is the
value at element 256 of channel 0: a vector with one tile does not have it. -/
theorem small_components_violated : ∃ it, small 8 32 4 0 0 0 0 4 = some it ∧
    it.deref 8 32 4 2 = [8 * TileVector.addr 32 4 0 0, 8 * TileVector.addr 32 4 0 (8 * 32)] ∧
    8 * TileVector.addr 32 4 0 (8 * 32) ≠ 8 * TileVector.addr 32 4 1 0 :=
  ⟨⟨0, 0, 0, 0, 4⟩, by decide +kernel, by decide +kernel, by decide +kernel⟩

end Verif.TileIter
