import Verif.Proof.BitPack

/-!
Properties of gathering and scattering bits by a mask.
-/
namespace Verif.BitPack

/-- `bit_pack_cuda`: bit `j` of the result is the bit of the data at the place of bit `j` of the mask. -/
theorem pack_exact (mask data : W) (hm : ∃ i < 63, mask.getLsbD i = true) :
    ∃ r, pack mask data = some r ∧ ∀ j < 32, r.getLsbD j = ((places mask)[j]?.map data.getLsbD).getD false := by
  obtain ⟨ul, a, b⟩ := packGo_exact mask data hm 65 0 0 [] (by omega) (by omega) (by intro j; simp)
  have pe : placesFrom mask 0 = places mask := by
    unfold placesFrom places
    rw [List.range_eq_range']
  rw [pe] at a b
  simp only [BitVec.shiftLeft_zero, BitVec.ushiftRight_zero, List.nil_append, List.length_nil, List.length_map] at a b
  have l1 : (places mask).length ≤ 64 := by
    unfold places
    have := List.length_filter_le (fun i => mask.getLsbD i) (List.range 64)
    simpa using this
  have l0 : 0 < (places mask).length := by
    obtain ⟨i, hi, hb⟩ := hm
    apply List.length_pos_of_mem (a := i)
    unfold places
    rw [List.mem_filter, List.mem_range]
    exact ⟨by omega, hb⟩
  unfold pack
  rw [a]
  simp only [Option.bind_eq_bind, Option.bind_some, shl, if_pos (show 64 - (places mask).length < 64 by omega), Option.pure_def]
  refine ⟨_, rfl, ?_⟩
  intro j hj
  rw [BitVec.getLsbD_setWidth, BitVec.getLsbD_reverse, BitVec.getMsbD_eq_getLsbD, BitVec.getLsbD_shiftLeft, b]
  by_cases h : j < (places mask).length
  · have e : 64 - 1 - j - (64 - (places mask).length) = (places mask).length - 1 - j := by omega
    rw [e]
    simp only [hj, decide_true, Bool.true_and, show j < 64 by omega, show 64 - 1 - j < 64 by omega,
      show ¬ (64 - 1 - j < 64 - (places mask).length) by omega, show (places mask).length - 1 - j < 64 by omega, decide_false, Bool.not_false]
    rw [List.getD_eq_getElem?_getD, List.getElem?_reverse (by simp; omega)]
    simp only [List.length_map]
    rw [show (places mask).length - 1 - ((places mask).length - 1 - j) = j by omega, List.getElem?_map]
  · simp [show 63 - j < 64 - (places mask).length by omega, List.getElem?_eq_none (show (places mask).length ≤ j by omega)]

/-- `bit_spread_cuda`: the places of the mask get the bits of the data in order, other places zero. -/
theorem spread_exact (mask : W) (data : BitVec 32) (hm : ∃ i < 63, mask.getLsbD i = true) :
    ∃ r, spread mask data = some r ∧ ∀ p, r.getLsbD p = (mask.getLsbD p && bit data (rank mask p)) := by
  obtain ⟨r, pos, a, b, c, d, e⟩ := spreadGo_exact mask data hm 65 0 0 data (by omega) (by omega) (by intro i; simp [rank]) (Or.inl rfl) (by intro j; simp)
  simp only [BitVec.shiftLeft_zero] at a
  have nz : mask ≠ 0 := by
    rintro rfl
    obtain ⟨i, -, h⟩ := hm
    simp at h
  obtain ⟨z1, z2, z3⟩ := clz_spec mask nz
  have p0 : pos ≠ 0 := by
    intro h
    obtain ⟨i, -, q⟩ := hm
    rw [d i (by omega)] at q
    cases q
  have cz : pos + clz mask = 64 := by
    rw [BitVec.getMsbD_eq_getLsbD] at z2
    have x1 : ¬ pos ≤ 64 - 1 - clz mask := by
      intro q
      rw [d _ q] at z2
      simp at z2
    have x2 : ¬ 64 - pos < clz mask := by
      intro q
      have := z3 (64 - pos) q
      rw [BitVec.getMsbD_eq_getLsbD] at this
      rcases c with c | c
      · exact p0 c
      · rw [show 64 - 1 - (64 - pos) = pos - 1 by omega, c] at this
        simp at this
        omega
    omega
  unfold spread
  rw [a]
  simp only [Option.bind_eq_bind, Option.bind_some, shr, if_pos z1]
  refine ⟨_, rfl, ?_⟩
  intro p
  rw [BitVec.getLsbD_ushiftRight, BitVec.getLsbD_reverse, BitVec.getMsbD_eq_getLsbD, e]
  by_cases h : p < pos
  · rw [show pos - 1 - (64 - 1 - (clz mask + p)) = p by omega]
    simp only [show clz mask + p < 64 by omega, show 64 - 1 - (clz mask + p) < pos by omega, decide_true, Bool.true_and]
    rfl
  · rw [d p (by omega)]
    simp only [show ¬ clz mask + p < 64 by omega, decide_false, Bool.false_and]

/-- Gathering what was scattered gives the data back, as far as the mask has bits. -/
theorem pack_spread (mask : W) (data : BitVec 32) (hm : ∃ i < 63, mask.getLsbD i = true) :
    ∃ r, (spread mask data).bind (pack mask) = some r ∧ ∀ j < 32, r.getLsbD j = (decide (j < (places mask).length) && data.getLsbD j) := by
  obtain ⟨x, a, b⟩ := spread_exact mask data hm
  obtain ⟨r, c, d⟩ := pack_exact mask x hm
  refine ⟨r, by rw [a]; exact c, ?_⟩
  intro j hj
  rw [d j hj]
  by_cases h : j < (places mask).length
  · obtain ⟨p, hp⟩ : ∃ p, (places mask)[j]? = some p := ⟨_, List.getElem?_eq_getElem h⟩
    obtain ⟨e, f, -⟩ := index_of _ _ _ _ hp
    rw [hp]
    simp only [Option.map_some, Option.getD_some, b, f, Bool.true_and, h, decide_true]
    unfold rank bit
    rw [e, show min j 31 = j by omega]
  · rw [List.getElem?_eq_none (by omega)]
    simp [h]

/-- Scattering what was gathered gives the bits of the data under the mask, if an `int` has room for them. -/
theorem spread_pack (mask data : W) (hm : ∃ i < 63, mask.getLsbD i = true) (hl : (places mask).length ≤ 32) :
    (pack mask data).bind (spread mask) = some (mask &&& data) := by
  obtain ⟨r, c, d⟩ := pack_exact mask data hm
  obtain ⟨x, a, b⟩ := spread_exact mask r hm
  rw [c]
  simp only [Option.bind_some, a]
  congr 1
  apply BitVec.eq_of_getLsbD_eq
  intro p hp
  rw [b, BitVec.getLsbD_and]
  cases h : mask.getLsbD p with
  | false => rfl
  | true =>
    have q := at_index (fun i => mask.getLsbD i) 64 p hp h
    have l : rank mask p < 32 := by
      have := (List.getElem?_eq_some_iff.mp q).1
      unfold places at hl
      unfold rank
      omega
    have w := d (rank mask p) l
    unfold bit
    rw [show min (rank mask p) 31 = rank mask p by omega, w]
    unfold places rank
    rw [q]
    rfl

/-- A mask for the theorems above. -/
example : (∃ i < 63, (0xF0F0#64).getLsbD i = true) ∧ (places 0xF0F0#64).length ≤ 32 := ⟨⟨4, by decide⟩, by decide +kernel⟩

/-- Scattering and gathering with the same mask. -/
example : (spread 0xF0F0#64 0x5A#32).bind (pack 0xF0F0#64) = some 0x5A#32 ∧ spread 0xF0F0#64 0x5A#32 = some 0x50A0#64 := by decide +kernel

/-- Without bits in the mask, or with the highest only, a shift is by all 64 bits. -/
theorem edge_violated (x : W) (y : BitVec 32) :
    pack 0#64 x = none ∧ spread 0#64 y = none ∧ pack 0x8000000000000000#64 x = none ∧ spread 0x8000000000000000#64 y = none := by
  have r1 : (0#64).reverse = 0#64 := by decide +kernel
  have r2 : (0x8000000000000000#64).reverse = 1#64 := by decide +kernel
  have c0 : clz 0#64 = 64 := by decide +kernel
  have c1 : clz 1#64 = 63 := by decide +kernel
  refine ⟨?_, ?_, ?_, ?_⟩
  · simp [pack, packGo, r1, shl]
  · simp [spread, spreadGo, r1, shr, c0]
  · rw [pack, r2, show (65 : Nat) = 64 + 1 from rfl, packGo, if_neg (by decide)]
    simp only [c1, shl, shr]
    rfl
  · rw [spread, r2, show (65 : Nat) = 64 + 1 from rfl, spreadGo, if_neg (by decide)]
    simp only [c1, shl]
    rfl

end Verif.BitPack
