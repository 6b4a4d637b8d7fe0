import Verif.Spec.GridRestructure
import Verif.Proof.GridComplement
import Verif.Props.GridAccess

/-! Helper lemmas for `restructure`: levels of two layouts, cells, and what is stored for a coordinate. -/
namespace Verif.Grid

variable {V : Type} {lay : Layout} {dim : Nat} {g : Grid V} {p : Topo V}

/-! ## Layouts -/

theorem sbit_zero (lay : Layout) : lay.sbit 0 = 0 := by rw [Layout.sbit, ebit_zero]; omega

theorem ebit_le (lay : Layout) {i j : Nat} (h : i ≤ j) : lay.ebit i ≤ lay.ebit j := by
  induction h with
  | refl => exact Nat.le_refl _
  | step _ ih => rw [ebit_succ]; omega

theorem sbit_le (hv : lay.Valid dim) {i j : Nat} (h : i ≤ j) (hj : j < lay.levels) : lay.sbit i ≤ lay.sbit j := by
  rw [sbit_spec hv (by omega), sbit_spec hv hj]
  have : List.range j = List.range i ++ (List.range (j - i)).map (i + ·) := by
    rw [← List.range_add]; congr 1; omega
  rw [this, List.map_append, List.sum_append]
  exact Nat.le_add_right _ _

theorem sbit_le_ebit (lay : Layout) (i : Nat) : lay.sbit i ≤ lay.ebit i := by rw [Layout.sbit]; omega

theorem sbit_succ_le (hv : lay.Valid dim) {i : Nat} (hi : i + 1 < lay.levels) : lay.sbit (i + 1) ≤ lay.ebit i := by
  have h1 := sbit_spec hv hi
  have h2 := sbit_spec hv (show i < lay.levels by omega)
  have h3 := sbit_add hv (show i < lay.levels by omega)
  have h4 := hv.scaling i (by omega)
  rw [List.range_succ, List.map_append, List.sum_append] at h1
  simp at h1
  omega

theorem closestChild_le (lay : Layout) (bits : Nat) : ∀ i, closestChild lay bits i ≤ i := by
  intro i
  induction i with
  | zero => exact Nat.le_refl _
  | succ i ih => unfold closestChild; split <;> omega

theorem closestChild_sbit (lay : Layout) (bits : Nat) : ∀ i, lay.sbit (closestChild lay bits i) ≤ bits := by
  intro i
  induction i with
  | zero => rw [closestChild, sbit_zero]; omega
  | succ i ih =>
    unfold closestChild
    split
    · assumption
    · exact ih

theorem closestChild_max (lay : Layout) (bits : Nat) : ∀ i j, j ≤ i → lay.sbit j ≤ bits → j ≤ closestChild lay bits i := by
  intro i
  induction i with
  | zero => intro j h _; exact Nat.le_trans h (Nat.zero_le _)
  | succ i ih =>
    intro j h hb
    unfold closestChild
    split
    · exact h
    · rename_i hn
      have : j ≠ i + 1 := fun e => hn (e ▸ hb)
      exact ih j (by omega) hb

theorem closest_lt (lay : Layout) (bits : Nat) (h : 0 < lay.levels) : lay.closest bits < lay.levels := by
  have := closestChild_le lay bits (lay.levels - 1)
  rw [Layout.closest]; omega

theorem closest_sbit (lay : Layout) (bits : Nat) : lay.sbit (lay.closest bits) ≤ bits := closestChild_sbit _ _ _

theorem closest_max {bits j : Nat} (hj : j < lay.levels) (h : lay.sbit j ≤ bits) : j ≤ lay.closest bits :=
  closestChild_max _ _ _ _ (by omega) h

theorem closest_mono {a b : Nat} (hl : 0 < lay.levels) (h : a ≤ b) : lay.closest a ≤ lay.closest b :=
  closest_max (closest_lt _ _ hl) (Nat.le_trans (closest_sbit _ _) h)

/-! ## Cells -/

theorem key_coarser {s e : Nat} (he : e < 32) (hs : s ≤ e) {a b : Coord} (h : keyOf s a = keyOf s b) : keyOf e a = keyOf e b := by
  rw [← keyOf_keyOf he hs a, h, keyOf_keyOf he hs b]

theorem corner_offset (hv : lay.Valid dim) {i : Nat} (hi : i < lay.levels) (c : Coord) (hc : c.length = dim) :
    tileOffset lay i (keyOf (lay.sbit i) c) = tileOffset lay i c := by
  have := (coord_of_iCoord hv hi (coordToKey lay i c) (coordToKey_idem _ _ _) (by rw [coordToKey_length]; exact hc) (tileOffset lay i c)
    (tileOffset_spec hv hi c hc).2).2
  rwa [(iCoord_of_coord hv hi c hc).1] at this

/-- Coordinates in the same cell have the same block and the same offset. -/
theorem cell_eq (hv : lay.Valid dim) {i : Nat} (hi : i < lay.levels) {a b : Coord} (ha : a.length = dim) (hb : b.length = dim)
    (h : keyOf (lay.sbit i) a = keyOf (lay.sbit i) b) : coordToKey lay i a = coordToKey lay i b ∧ tileOffset lay i a = tileOffset lay i b :=
  ⟨key_coarser (ebit_lt hv hi) (sbit_le_ebit _ _) h, by rw [← corner_offset hv hi a ha, h, corner_offset hv hi b hb]⟩

theorem corner_key (hv : lay.Valid dim) {i : Nat} (hi : i < lay.levels) (c : Coord) : coordToKey lay i (keyOf (lay.sbit i) c) = coordToKey lay i c :=
  keyOf_keyOf (ebit_lt hv hi) (sbit_le_ebit _ _) c

theorem ActiveAt.corner (hv : g.lay.Valid g.dim) {i : Nat} (hi : i < g.lay.levels) {c : Coord} (hc : c.length = g.dim) (h : ActiveAt g i c) :
    ActiveAt g i (keyOf (g.lay.sbit i) c) := by
  obtain ⟨l, b, m, ⟨h1, h2, h3⟩, h4, h5⟩ := h
  exact ⟨l, b, m, ⟨h1, h2, by rw [corner_key hv hi, h3]⟩, h4, by rw [corner_offset hv hi c hc]; exact h5⟩

/-! ## Values -/

/-- Level `i` has the finest block around `c`. -/
def Finest (g : Grid V) (i : Nat) (c : Coord) (l : Level V) (b : Nat) : Prop :=
  BlockAt g i c l b ∧ ∀ j < i, ∀ l b, ¬ BlockAt g j c l b

theorem BlockAt.lt (hc : Consistent g) {i : Nat} {c : Coord} {l : Level V} {b : Nat} (h : BlockAt g i c l b) : i < g.lay.levels := by
  rw [← hc.count]; exact (List.getElem?_eq_some_iff.1 h.1).1

theorem exists_finest (g : Grid V) (c : Coord) : (∀ i l b, ¬ BlockAt g i c l b) ∨ ∃ i l b, Finest g i c l b := by
  by_cases h : ∃ i l b, BlockAt g i c l b
  · obtain ⟨i, h⟩ := h
    right
    induction i using Nat.strongRecOn with
    | ind i ih =>
      by_cases h' : ∃ j < i, ∃ l b, BlockAt g j c l b
      · obtain ⟨j, hj, hx⟩ := h'
        exact ih j hj hx
      · obtain ⟨l, b, hb⟩ := h
        exact ⟨i, l, b, hb, fun j hj l b hx => h' ⟨j, hj, l, b, hx⟩⟩
  · exact .inl fun i l b hb => h ⟨i, l, b, hb⟩

theorem probe_any (hs : Source p g) (o : Bool) (chn : Nat) (c : Coord) (hcl : c.length = g.dim) :
    probeValue g o chn c = probe g false chn c g.top none := by
  cases o
  · rfl
  · refine probe_ordered hs.consistent (fun i _ l lc h1 h2 c hc p b k1 k2 => hs.ordered i l lc h1 h2 c hc p b k1 k2) chn c hcl g.top (top_lt hs.consistent.valid)

theorem probe_none (hs : Source p g) (o : Bool) (chn : Nat) (c : Coord) (hcl : c.length = g.dim) (h : ∀ i l b, ¬ BlockAt g i c l b) :
    probeValue g o chn c = some (false, g.background) := by
  rw [probe_any hs o chn c hcl]
  exact (probe_finest hs.consistent chn hcl g.top (top_lt hs.consistent.valid)).1 fun j _ => h j

/-- What is stored. -/
theorem value_some (hs : Source p g) {i : Nat} {c : Coord} (hcl : c.length = g.dim) {l : Level V} {b chn : Nat} (h : BlockAt g i c l b)
    (hch : chn < p.chns) : ∃ m v, l.valueMask.data[b]? = some m
      ∧ l.value chn b (tileOffset g.lay i c).toNat = some (BitMask.bit m (tileOffset g.lay i c).toNat, v) := by
  have hi := h.lt hs.consistent
  obtain ⟨h1, h2, h3⟩ := h
  have hok := hs.consistent.level i l h1
  obtain ⟨f1, f2⟩ := hs.full i l h1
  have ho := (tileOffset_spec hs.consistent.valid hi c hcl).2
  have ht : b < l.tiles.length := by rw [hok.tiles]; exact h2
  have hm : b < l.valueMask.data.length := Nat.lt_of_lt_of_le h2 hok.values
  obtain ⟨g1, g2⟩ := f1 b _ (List.getElem?_eq_getElem ht)
  have hm' := f2 b _ h2 (List.getElem?_eq_getElem hm)
  have hch' : chn < l.tiles[b].length := by rw [g1]; exact hch
  have hx : (tileOffset g.lay i c).toNat < l.tiles[b][chn].length := by rw [g2 _ (List.getElem_mem hch')]; exact ho
  refine ⟨l.valueMask.data[b], l.tiles[b][chn][(tileOffset g.lay i c).toNat], List.getElem?_eq_getElem hm, ?_⟩
  have hw := words_bound ((2 ^ g.lay.tileBits i) ^ g.dim)
  simp only [Level.value, List.getElem?_eq_getElem ht, List.getElem?_eq_getElem hm, Option.bind_some, List.getElem?_eq_getElem hch',
    List.getElem?_eq_getElem hx, BitMask.isOn_eq (ws := l.valueMask.data[b]) (show (tileOffset g.lay i c).toNat < 64 * l.valueMask.data[b].length by omega), Option.map_some]

theorem probe_block (hs : Source p g) (o : Bool) (chn : Nat) (c : Coord) (hcl : c.length = g.dim) {i : Nat} {l : Level V} {b : Nat} (h : Finest g i c l b) :
    probeValue g o chn c = l.value chn b (tileOffset g.lay i c).toNat := by
  rw [probe_any hs o chn c hcl]
  have hi := h.1.lt hs.consistent
  exact (probe_finest hs.consistent chn hcl g.top (top_lt hs.consistent.valid)).2 i (by rw [Grid.top]; omega) (fun k hk => h.2 k hk) l b h.1

theorem probe_some (hs : Source p g) (o : Bool) {chn : Nat} (hch : chn < p.chns) (c : Coord) (hcl : c.length = g.dim) :
    ∃ r, probeValue g o chn c = some r := by
  rcases exists_finest g c with h | ⟨i, l, b, h⟩
  · exact ⟨_, probe_none hs o chn c hcl h⟩
  · obtain ⟨m, v, _, e⟩ := value_some hs hcl h.1 hch
    exact ⟨_, (probe_block hs o chn c hcl h).trans e⟩

/-- A value is active exactly if the cell in the finest block is. -/
theorem probe_active (hs : Source p g) (o : Bool) {chn : Nat} (hch : chn < p.chns) (c : Coord) (hcl : c.length = g.dim) (v : V) :
    probeValue g o chn c = some (true, v) → ∃ i l b, Finest g i c l b ∧ ActiveAt g i c := by
  intro h
  rcases exists_finest g c with hn | ⟨i, l, b, hf⟩
  · rw [probe_none hs o chn c hcl hn] at h; cases h
  · obtain ⟨m, v, hm, e⟩ := value_some hs hcl hf.1 hch
    rw [probe_block hs o chn c hcl hf, e] at h
    injection h with h
    injection h with h1 h2
    exact ⟨i, l, b, hf, l, b, m, hf.1, hm, h1⟩

/-- Two coordinates in one cell of the finest block have the same value. -/
theorem same_probe (hs : Source p g) (o : Bool) (chn : Nat) {c z : Coord} (hcl : c.length = g.dim) (hzl : z.length = g.dim) {i : Nat} {l : Level V}
    {b : Nat} (h : Finest g i c l b) (hk : keyOf (g.lay.sbit i) z = keyOf (g.lay.sbit i) c) :
    Finest g i z l b ∧ probeValue g o chn z = probeValue g o chn c := by
  have hv := hs.consistent.valid
  have hi := h.1.lt hs.consistent
  obtain ⟨k1, k2⟩ := cell_eq hv hi hzl hcl hk
  have hf : Finest g i z l b := by
    refine ⟨⟨h.1.1, h.1.2.1, by rw [k1]; exact h.1.2.2⟩, ?_⟩
    intro j hj l' b' hb'
    obtain ⟨i, rfl⟩ : ∃ i', i = i' + 1 := ⟨i - 1, by omega⟩
    have hkey : coordToKey g.lay i z = coordToKey g.lay i c := key_coarser (ebit_lt hv (by omega)) (sbit_succ_le hv hi) hk
    have hcov : Covered g i z := ⟨j, by omega, l', hb'.1, b', hb'.2.1, by rw [hb'.2.2, parent_key hv (by omega) (by omega)]⟩
    obtain ⟨l2, b2, h2⟩ := (hs.consistent.covered (show i < g.lay.levels by omega)).1 hcov
    exact h.2 i (Nat.lt_succ_self i) l2 b2 ⟨h2.1, h2.2.1, by rw [← hkey]; exact h2.2.2⟩
  exact ⟨hf, by rw [probe_block hs o chn z hzl hf, probe_block hs o chn c hcl h, k2]⟩

end Verif.Grid
