import Verif.Proof.GridCoord

/-!
C65: in an adaptive grid, block key and offset identify a cell, on every level and for all coordinates including negative ones, and
parents and children fit together.
-/
namespace Verif.Grid

variable {L : Layout} {dim : Nat}

/-- The key of a block is its lowest corner: the components rounded down to the side length of the blocks of that level. -/
theorem coordToKey_spec (h : L.Valid dim) {i : Nat} (hi : i < L.levels) (c : Coord) :
    (coordToKey L i c).map BitVec.toInt = c.map fun x => origin (L.ebit i) x.toInt := by
  simp only [coordToKey, keyOf, List.map_map]
  apply List.map_congr_left
  intro x _
  exact key_toInt (ebit_lt h hi) x

/-- The offset of a cell is its row-major number in the block, and is below the number of cells. -/
theorem tileOffset_spec (h : L.Valid dim) {i : Nat} (hi : i < L.levels) (c : Coord) (hc : c.length = dim) :
    (tileOffset L i c).toNat = number (L.tileBits i) (c.map fun x => place (L.ebit i) (L.sbit i) x.toInt)
      ∧ (tileOffset L i c).toNat < (2 ^ L.tileBits i) ^ dim := by
  have hl : c.length * L.tileBits i < 33 := by have := h.tile i hi; rw [hc]; omega
  have he := ebit_lt h hi
  refine ⟨?_, ?_⟩
  · rw [tileOffset, flatten_toNat he (sbit_add h hi) c hl]
    congr 1
    apply List.map_congr_left
    intro x _
    exact (place_eq he _ x).symm
  · rw [← Nat.pow_mul, Nat.mul_comm, ← hc]
    exact flatten_lt he (sbit_add h hi) c hl

/-- The offset of a child is the row-major number of the child's block in its parent. -/
theorem hierOffset_spec (h : L.Valid dim) {i : Nat} (hi : i < L.levels) (c : Coord) (hc : c.length = dim) :
    (hierOffset L i c).toNat = number (L.hierBits i) (c.map fun x => place (L.ebit i) (L.below i) x.toInt)
      ∧ (hierOffset L i c).toNat < (2 ^ L.hierBits i) ^ dim := by
  have hl : c.length * L.hierBits i < 33 := by
    have h1 := h.tile i hi
    have h2 := Nat.mul_le_mul_left dim (hier_le L i)
    rw [hc]; omega
  have he := ebit_lt h hi
  refine ⟨?_, ?_⟩
  · rw [hierOffset, flatten_toNat he (below_add L i) c hl]
    congr 1
    apply List.map_congr_left
    intro x _
    exact (place_eq he _ x).symm
  · rw [← Nat.pow_mul, Nat.mul_comm, ← hc]
    exact flatten_lt he (below_add L i) c hl

/-- The width of a cell: the scaling bits of the finer levels added up. -/
theorem sbit_spec (h : L.Valid dim) {i : Nat} (hi : i < L.levels) : L.sbit i = ((List.range i).map L.scalingBits).sum := by
  have := ebit_eq h i hi
  have := sbit_add h hi
  omega

/-- `iCoord` of the key and the offset of a coordinate is the corner of its cell; on the finest level, the coordinate itself. -/
theorem iCoord_of_coord (h : L.Valid dim) {i : Nat} (hi : i < L.levels) (c : Coord) (hc : c.length = dim) :
    iCoord L i (coordToKey L i c) (tileOffset L i c) = keyOf (L.sbit i) c ∧ (i = 0 → keyOf (L.sbit i) c = c) := by
  have hl : c.length * L.tileBits i < 33 := by have := h.tile i hi; rw [hc]; omega
  refine ⟨?_, ?_⟩
  · rw [iCoord, coordToKey, keyOf_length]
    exact add_spread (ebit_lt h hi) (sbit_add h hi) c hl
  · intro h0
    subst h0
    have : L.sbit 0 = 0 := by rw [sbit_spec h hi]; rfl
    rw [this, keyOf_zero]

/-- Conversely each block and each offset below the number of cells come back from their coordinate. -/
theorem coord_of_iCoord (h : L.Valid dim) {i : Nat} (hi : i < L.levels) (k : Coord) (hk : coordToKey L i k = k) (hd : k.length = dim)
    (o : BitVec 32) (ho : o.toNat < (2 ^ L.tileBits i) ^ dim) :
    coordToKey L i (iCoord L i k o) = k ∧ tileOffset L i (iCoord L i k o) = o := by
  have hl : k.length * L.tileBits i < 33 := by have := h.tile i hi; rw [hd]; omega
  refine flatten_spread (ebit_lt h hi) (sbit_add h hi) k hk hl o ?_
  rwa [hd, Nat.mul_comm, Nat.pow_mul]

/-- Two coordinates have the same key and offset only if they lie in the same cell. -/
theorem same_cell (h : L.Valid dim) {i : Nat} (hi : i < L.levels) (c c' : Coord) (hc : c.length = dim) (hc' : c'.length = dim)
    (hk : coordToKey L i c = coordToKey L i c') (ho : tileOffset L i c = tileOffset L i c') :
    c.map (fun x => origin (L.sbit i) x.toInt) = c'.map fun x => origin (L.sbit i) x.toInt := by
  have h1 := (iCoord_of_coord h hi c hc).1
  have h2 := (iCoord_of_coord h hi c' hc').1
  rw [hk, ho, h2] at h1
  have hs : L.sbit i < 32 := by have := ebit_lt h hi; rw [Layout.sbit]; omega
  have key : ∀ c : Coord, (keyOf (L.sbit i) c).map BitVec.toInt = c.map fun x => origin (L.sbit i) x.toInt := by
    intro c
    simp only [keyOf, List.map_map]
    exact List.map_congr_left fun x _ => key_toInt hs x
  rw [← key, ← key, h1]

/-- The child's key from the parent's key and the offset of the child. -/
theorem child_key (h : L.Valid dim) {i : Nat} (hi : i + 1 < L.levels) (c : Coord) (hc : c.length = dim) :
    addCoord (coordToKey L (i + 1) c) (hierCoord L (i + 1) dim (hierOffset L (i + 1) c)) = coordToKey L i c := by
  have hl : c.length * L.hierBits (i + 1) < 33 := by
    have h1 := h.tile (i + 1) hi
    have h2 := Nat.mul_le_mul_left dim (hier_le L (i + 1))
    rw [hc]; omega
  have := add_spread (ebit_lt h hi) (below_add L (i + 1)) c hl
  rw [hc] at this
  exact this

/-- Each offset of a child below the number of children comes back from the child's key. -/
theorem child_offset (h : L.Valid dim) {i : Nat} (hi : i + 1 < L.levels) (k : Coord) (hk : coordToKey L (i + 1) k = k)
    (hd : k.length = dim) (o : BitVec 32) (ho : o.toNat < (2 ^ L.hierBits (i + 1)) ^ dim) :
    coordToKey L (i + 1) (addCoord k (hierCoord L (i + 1) dim o)) = k ∧ hierOffset L (i + 1) (addCoord k (hierCoord L (i + 1) dim o)) = o := by
  have hl : k.length * L.hierBits (i + 1) < 33 := by
    have h1 := h.tile (i + 1) hi
    have h2 := Nat.mul_le_mul_left dim (hier_le L (i + 1))
    rw [hd]; omega
  have := flatten_spread (ebit_lt h hi) (below_add L (i + 1)) k hk hl o (by rwa [hd, Nat.mul_comm, Nat.pow_mul])
  rw [hd] at this
  exact this

/-- The parent of a block is the block of the coarser level that contains it: coarser keys depend on the finer key only. -/
theorem parent_key (h : L.Valid dim) {i j : Nat} (hij : i ≤ j) (hj : j < L.levels) (c : Coord) :
    coordToKey L j (coordToKey L i c) = coordToKey L j c := by
  refine keyOf_keyOf (ebit_lt h hj) ?_ c
  clear hj
  induction j with
  | zero => have : i = 0 := by omega
            rw [this]; omega
  | succ j ih =>
    by_cases hc : i = j + 1
    · rw [hc]; omega
    · have := ih (by omega)
      rw [ebit_succ]; omega

/-- No key is the value that marks a hole of the hash table (all components `0x3f3f3f3f`) nor the largest integer that marks an empty
record of an accessor: keys are even. -/
theorem key_ne_marker (h : L.Valid dim) {i : Nat} (hi : i < L.levels) (hd : 0 < dim) (c : Coord) (hc : c.length = dim) :
    coordToKey L i c ≠ List.replicate dim 0x3f3f3f3f#32 ∧ coordToKey L i c ≠ List.replicate dim 0x7fffffff#32 := by
  have he := ebit_lt h hi
  have hp := ebit_pos h hi
  cases c with
  | nil => simp at hc; omega
  | cons x c =>
    have low : (x &&& ~~~(cellMask (L.ebit i))).getLsbD 0 = false := by
      rw [key_bit he]
      have : ¬ L.ebit i ≤ 0 := by omega
      simp [this]
    obtain ⟨n, rfl⟩ : ∃ n, dim = n + 1 := ⟨dim - 1, by omega⟩
    constructor
    · intro e
      rw [coordToKey, keyOf, List.map_cons, List.replicate_succ, List.cons.injEq] at e
      rw [e.1] at low
      revert low; decide
    · intro e
      rw [coordToKey, keyOf, List.map_cons, List.replicate_succ, List.cons.injEq] at e
      rw [e.1] at low
      revert low; decide

/-- Two levels of blocks that are valid: the layout of a VDB tree and the one of an octree with overlap. -/
theorem valid_vdb : (Layout.mk [3, 4, 5] [3, 4, 5]).Valid 3 :=
  ⟨by decide, rfl, by decide, by decide, by decide, by decide⟩
theorem valid_octree : (Layout.mk [2, 2, 2] [1, 1, 1]).Valid 3 :=
  ⟨by decide, rfl, by decide, by decide, by decide, by decide⟩

/-- A negative coordinate: level 1 of a VDB tree has blocks of 128 and cells of 8. -/
example : coordToKey ⟨[3, 4, 5], [3, 4, 5]⟩ 1 [-1, 5, 200] = [-128, 0, 128]
    ∧ tileOffset ⟨[3, 4, 5], [3, 4, 5]⟩ 1 [-1, 5, 200] = 15 * 256 + 0 * 16 + 9
    ∧ iCoord ⟨[3, 4, 5], [3, 4, 5]⟩ 1 [-128, 0, 128] (15 * 256 + 9) = [-8, 0, 200] := by decide +kernel

/-! ## Sparse grids -/

/-- The decomposition of a coordinate in a sparse grid with side length `2 ^ b` is that of the finest level of an adaptive grid. -/
theorem decompose_spec {b : Nat} (hb : b < 31) (c : Coord) (hc : c.length * b < 32) :
    (blockId b c).map BitVec.toInt = c.map (fun x => origin b x.toInt)
      ∧ (localOffset b (cellId b c)).toNat = number b (c.map fun x => place b 0 x.toInt)
      ∧ (localOffset b (cellId b c)).toNat < (2 ^ b) ^ c.length := by
  have he : b < 32 := by omega
  refine ⟨?_, ?_, ?_⟩
  · rw [blockId_eq he]
    simp only [keyOf, List.map_map]
    exact List.map_congr_left fun x _ => key_toInt he x
  · rw [localOffset_eq he c (by omega), flatten_toNat he (Nat.zero_add b) c (by omega)]
    congr 1
    apply List.map_congr_left
    intro x _
    exact (place_eq he _ x).symm
  · rw [localOffset_eq he c (by omega), ← Nat.pow_mul, Nat.mul_comm]
    exact flatten_lt he (Nat.zero_add b) c (by omega)

/-- `iCoord` inverts it. -/
theorem sparse_iCoord {b : Nat} (hb : b < 31) (c : Coord) (hc : c.length * b < 32) :
    addCoord (blockId b c) (localCoord b c.length (localOffset b (cellId b c))) = c := by
  have he : b < 32 := by omega
  have hlt : (localOffset b (cellId b c)).toNat < 2 ^ 31 := by
    rw [localOffset_eq he c (by omega)]
    have h1 := flatten_lt he (Nat.zero_add b) c (by omega)
    have h2 : 2 ^ (c.length * b) ≤ 2 ^ 31 := Nat.pow_le_pow_right (by omega) (by omega)
    omega
  rw [localCoord_eq hb _ _ hlt, localOffset_eq he c (by omega), blockId_eq he, add_spread he (Nat.zero_add b) c (by omega), keyOf_zero]

/-- Each block and each offset come back from their coordinate. -/
theorem sparse_of_iCoord {b : Nat} (hb : b < 31) (k : Coord) (hk : blockId b k = k) (hc : k.length * b < 32) (o : BitVec 32)
    (ho : o.toNat < (2 ^ b) ^ k.length) :
    blockId b (addCoord k (localCoord b k.length o)) = k ∧ localOffset b (cellId b (addCoord k (localCoord b k.length o))) = o := by
  have he : b < 32 := by omega
  have ho' : o.toNat < 2 ^ (k.length * b) := by rwa [Nat.mul_comm, Nat.pow_mul]
  have hlt : o.toNat < 2 ^ 31 := by
    have h2 : 2 ^ (k.length * b) ≤ 2 ^ 31 := Nat.pow_le_pow_right (by omega) (by omega)
    omega
  rw [blockId_eq he] at hk ⊢
  have hl : (addCoord k (spread b 0 k.length o)).length = k.length := by
    rw [addCoord, List.length_zipWith, spread_length, Nat.min_self]
  rw [localCoord_eq hb _ _ hlt, localOffset_eq he _ (by rw [hl]; omega)]
  exact flatten_spread he (Nat.zero_add b) k hk (by omega) o ho'

/-- `global_coord_to_local_offset` does not mask the first component: with side length 8, the cell (8, 0, 0) gets an offset beyond the 512
cells of a block (were its assertion not to reject every side length above one). -/
theorem global_offset_violated : (globalLocalOffset 3 [8, 0, 0]).toNat = 512 ∧ (localOffset 3 (cellId 3 [8, 0, 0])).toNat = 0 := by
  decide +kernel

example : blockId 3 [-1, 5, 200] = [-8, 0, 200] ∧ localOffset 3 (cellId 3 [-1, 5, 200]) = 7 * 64 + 5 * 8 := by decide +kernel

end Verif.Grid
