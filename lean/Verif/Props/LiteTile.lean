import Verif.Proof.LiteTile

/-!
Properties of the views of tiled vectors that are handed to compiled kernels.
-/
namespace Verif.LiteTile

variable {α : Type} {v : View α} {tiles nch lane : Nat} {f : Nat → Nat → α}

/-- `view(chn, i)` is the value of element `i` in channel `chn`. -/
theorem read_exact (h : Holds v tiles nch lane f) (c i : Nat) (hc : c < nch) (hi : i < tiles * lane) :
    v.read (v.at c i) = some (f c i) := read_layout h _ c i (layout_at h c i hc hi)

/-- `view(chn, tileNo, localNo)` is the value of the element in that place of the tile. -/
theorem read3_exact (h : Holds v tiles nch lane f) (c t l : Nat) (hc : c < nch) (ht : t < tiles) (hl : l < lane) :
    v.read (v.at3 c t l) = some (f c (t * lane + l)) := by
  refine read_layout h _ c _ ?_
  unfold View.at3
  rw [h.lane_eq, h.nch_eq, wrap_cell tiles nch lane t c l ht hc hl h.fits, layout_get tiles nch lane t c l ht hc hl]

/-- Different channels and elements are in different cells. -/
theorem cells_distinct (h : Holds v tiles nch lane f) (c i c' i' : Nat) (hc : c < nch) (hi : i < tiles * lane) (hc' : c' < nch)
    (hi' : i' < tiles * lane) (he : v.at c i = v.at c' i') : c = c' ∧ i = i' := by
  have h1 := layout_at h c i hc hi
  rw [he, layout_at h c' i' hc' hi'] at h1
  simp at h1
  omega

/-- The cell of a view of one tile. -/
theorem tile_exact (h : Holds v tiles nch lane f) (c t l : Nat) (hc : c < nch) (ht : t < tiles) (hl : l < lane) :
    (v.tile t).read ((v.tile t).at c l) = some (f c (t * lane + l)) := by
  have hb := cell_lt tiles nch lane t c l ht hc hl
  have hf := h.fits
  have e : (t * nch + c) * lane + l = t * lane * nch + (c * lane + l) := by
    rw [Nat.add_mul, Nat.mul_right_comm, Nat.add_assoc]
  have hn : nch ≤ tiles * (nch * lane) := by
    have h1 : nch * 1 ≤ nch * lane := Nat.mul_le_mul_left nch (by omega)
    have h2 : 1 * (nch * lane) ≤ tiles * (nch * lane) := Nat.mul_le_mul_right _ (by omega)
    omega
  have ht1 : t * lane * 1 ≤ t * lane * nch := Nat.mul_le_mul_left _ (by omega)
  have ha : (v.tile t).at c l = c * lane + l := by
    unfold View.at View.tile
    simp only [if_true]
    rw [h.lane_eq, conv_nat (c := c) (by omega), wrap_eq (x := c * lane) (by omega), wrap_eq (by omega)]
  have ho : (v.tile t).off = t * lane * nch := by
    unfold View.tile
    simp only
    rw [h.off, h.lane_eq, h.nch_eq, conv_nat (c := nch) (by omega), wrap_eq (x := t * lane) (by omega), wrap_eq (by omega), Nat.zero_add]
  unfold View.read
  rw [ho, ha, ← e]
  show v.mem[_]? = _
  rw [h.mem, List.getElem?_map, layout_get tiles nch lane t c l ht hc hl]
  rfl

/-- `pack` gives the values of consecutive channels. -/
theorem pack_exact (h : Holds v tiles nch lane f) (n c i : Nat) (hn : 0 < n) (hc : c + n ≤ nch) (hi : i < tiles * lane) :
    v.pack n c i = some ((List.range n).map fun k => f (c + k) i) := by
  refine packGo_eq v _ n _ (fun k hk => ?_)
  rw [← read_exact h (c + k) i (by omega) hi, at_eq h c i (by omega) hi, at_eq h (c + k) i (by omega) hi, h.lane_eq]
  congr 1
  rw [← Nat.add_assoc, Nat.add_mul (i / lane * nch + c) k]
  omega

/-- `tuple` refers to the cells of consecutive channels. -/
theorem tuple_exact (h : Holds v tiles nch lane f) (n c i : Nat) (hc : c + n ≤ nch) (hi : i < tiles * lane) :
    (v.tuple n c i).map v.read = (List.range n).map fun k => some (f (c + k) i) := by
  unfold View.tuple
  rw [List.map_map]
  refine List.map_congr_left (fun k hk => ?_)
  have hk : k < n := List.mem_range.1 hk
  obtain ⟨hl0, ht, hl⟩ := elem_tile hi
  have hb := cell_lt tiles nch lane _ (c + k) _ ht (by omega : c + k < nch) hl
  have hf := h.fits
  have hcb : c + k < 2 ^ 64 := by
    have hm : (i / lane * nch + (c + k)) * 1 ≤ (i / lane * nch + (c + k)) * lane := Nat.mul_le_mul_left _ hl0
    omega
  rw [← read_exact h (c + k) i (by omega) hi, View.at]
  simp only [Function.comp, h.within]
  rw [conv_nat (c := c) (by omega), wrap_eq hcb, conv_nat hcb]

/-- The cells of a view of one tile, relative to the tile. -/
theorem tile_at (h : Holds v tiles nch lane f) (c t l : Nat) (hc : c < nch) (ht : t < tiles) (hl : l < lane) :
    (v.tile t).at c l = c * lane + l ∧ c < 2 ^ 64 ∧ c * lane + l < 2 ^ 64 := by
  have hb := cell_lt tiles nch lane 0 c l (by omega) hc hl
  have hf := h.fits
  rw [Nat.zero_mul, Nat.zero_add] at hb
  have hm : c * 1 ≤ c * lane := Nat.mul_le_mul_left c (by omega)
  refine ⟨?_, by omega, by omega⟩
  unfold View.at View.tile
  simp only [if_true]
  rw [h.lane_eq, conv_nat (c := c) (by omega), wrap_eq (x := c * lane) (by omega), wrap_eq (by omega)]

/-- `pack` in a view of one tile. -/
theorem tile_pack_exact (h : Holds v tiles nch lane f) (n c t l : Nat) (hn : 0 < n) (hc : c + n ≤ nch) (ht : t < tiles) (hl : l < lane) :
    (v.tile t).pack n c l = some ((List.range n).map fun k => f (c + k) (t * lane + l)) := by
  refine packGo_eq _ _ n _ (fun k hk => ?_)
  rw [← tile_exact h (c + k) t l (by omega) ht hl, (tile_at h c t l (by omega) ht hl).1, (tile_at h (c + k) t l (by omega) ht hl).1]
  show (v.tile t).read (_ + k * v.lane) = _
  rw [h.lane_eq, Nat.add_mul]
  congr 1
  omega

/-- `tuple` in a view of one tile. -/
theorem tile_tuple_exact (h : Holds v tiles nch lane f) (n c t l : Nat) (hc : c + n ≤ nch) (ht : t < tiles) (hl : l < lane) :
    ((v.tile t).tuple n c l).map (v.tile t).read = (List.range n).map fun k => some (f (c + k) (t * lane + l)) := by
  unfold View.tuple
  rw [List.map_map]
  refine List.map_congr_left (fun k hk => ?_)
  have hk : k < n := List.mem_range.1 hk
  obtain ⟨ha, hb, hb'⟩ := tile_at h (c + k) t l (by omega) ht hl
  rw [← tile_exact h (c + k) t l (by omega) ht hl, ha]
  show (v.tile t).read (wrap (wrap (wrap (conv c + k) * v.lane) + l)) = _
  rw [h.lane_eq, conv_nat (c := c) (by omega), wrap_eq hb, wrap_eq (x := (c + k) * lane) (by omega), wrap_eq hb']

section named
variable {ν : Type} [DecidableEq ν] {w : Named ν α}

/-- `hasProperty`: the name is one of the properties. -/
theorem has_exact (p : ν) : w.has p = true ↔ p ∈ w.names := by
  unfold Named.has Named.index
  by_cases h : p ∈ w.names
  · obtain ⟨k, h1, h2, -⟩ := indexGo_mem p w.names 0 h
    obtain ⟨hk, -⟩ := List.getElem?_eq_some_iff.1 h2
    simp only [h, iff_true, h1, Nat.zero_add, bne_iff_ne]
    omega
  · simp [h, indexGo_not_mem p w.names 0 h]

/-- `propertyIndex`: the first property of that name. -/
theorem index_exact (p : ν) (h : p ∈ w.names) : w.names[w.index p]? = some p ∧ ∀ j, j < w.index p → w.names[j]? ≠ some p := by
  obtain ⟨k, h1, h2, h3⟩ := indexGo_mem p w.names 0 h
  have e : w.index p = k := by unfold Named.index; omega
  rw [e]
  exact ⟨h2, h3⟩

/-- A view with names over a tiled vector: the properties are different and share the channels out among them. -/
structure Tagged (w : Named ν α) (tiles nch lane : Nat) (f : Nat → Nat → α) : Prop where
  holds : Holds w.base tiles nch lane f
  nodup : w.names.Nodup
  offsets : w.offsets.length = w.names.length
  sizes : w.sizes.length = w.names.length
  consecutive : Consecutive 0 w.offsets w.sizes
  total : w.sizes.sum = nch

theorem tagged_index (h : Tagged w tiles nch lane f) (k : Nat) (p : ν) (hp : w.names[k]? = some p) : w.index p = k := by
  obtain ⟨hk, ek⟩ := List.getElem?_eq_some_iff.1 hp
  obtain ⟨h1, h2⟩ := index_exact (w := w) p (ek ▸ List.getElem_mem hk)
  obtain ⟨hj, ej⟩ := List.getElem?_eq_some_iff.1 h1
  exact (List.getElem_inj h.nodup).1 (ej.trans ek.symm)

/-- Access by name reaches the channel of the property, for every property and every channel of it, and `pack` the whole of the property. -/
theorem named_exact (h : Tagged w tiles nch lane f) (k : Nat) (p : ν) (hp : w.names[k]? = some p) :
    ∃ o s : Nat, w.offset p = some (o : Int) ∧ w.size p = some (s : Int) ∧ w.offsets[k]? = some (o : Int) ∧ w.sizes[k]? = some (s : Int) ∧ o + s ≤ nch ∧
      ∀ c i : Nat, c < s → i < tiles * lane →
        (w.at p c i).bind w.base.read = some (f (o + c) i) ∧
        (w.at0 p i).bind w.base.read = some (f o i) ∧
        w.pack (s - c) p c i = some ((List.range (s - c)).map fun d => f (o + c + d) i) ∧
        (w.tuple (s - c) p c i).map (List.map w.base.read) = some ((List.range (s - c)).map fun d => some (f (o + c + d) i)) := by
  obtain ⟨hk, -⟩ := List.getElem?_eq_some_iff.1 hp
  have ho : w.offsets[k]? = some (w.offsets[k]'(by rw [h.offsets]; exact hk)) := by simp
  have hs : w.sizes[k]? = some (w.sizes[k]'(by rw [h.sizes]; exact hk)) := by simp
  generalize w.offsets[k]'(by rw [h.offsets]; exact hk) = a at ho
  generalize w.sizes[k]'(by rw [h.sizes]; exact hk) = s at hs
  obtain ⟨q1, q2, q3, -⟩ := consecutive_get _ _ _ h.consecutive k a s ho hs
  obtain ⟨o, rfl⟩ : ∃ o : Nat, a = o := ⟨a.toNat, by omega⟩
  obtain ⟨s, rfl⟩ : ∃ n : Nat, s = n := ⟨s.toNat, by omega⟩
  rw [h.total] at q3
  have hi := tagged_index h k p hp
  refine ⟨o, s, by rw [Named.offset, hi, ho], by rw [Named.size, hi, hs], ho, hs, by omega, ?_⟩
  intro c i hc hi'
  refine ⟨?_, ?_, ?_, ?_⟩
  · unfold Named.at
    rw [hi, ho]
    have := read_exact h.holds (o + c) i (by omega) hi'
    simpa using this
  · unfold Named.at0
    rw [hi, ho]
    have := read_exact h.holds o i (by omega) hi'
    simpa using this
  · unfold Named.pack
    rw [hi, ho]
    have := pack_exact h.holds (s - c) (o + c) i (by omega) (by omega) hi'
    simpa using this
  · unfold Named.tuple
    rw [hi, ho]
    have := tuple_exact h.holds (s - c) (o + c) i (by omega) hi'
    simpa using this

/-- Cells that are reached by different names, or different channels or elements of a property, are different. -/
theorem named_distinct (h : Tagged w tiles nch lane f) (k k' : Nat) (p p' : ν) (hp : w.names[k]? = some p) (hp' : w.names[k']? = some p')
    (s s' : Int) (hs : w.size p = some s) (hs' : w.size p' = some s') (c c' i i' : Nat) (hc : (c : Int) < s) (hc' : (c' : Int) < s')
    (hi : i < tiles * lane) (hi' : i' < tiles * lane) (he : w.at p c i = w.at p' c' i') : p = p' ∧ c = c' ∧ i = i' := by
  obtain ⟨o, n, -, h2, h3, h3', h4, -⟩ := named_exact h k p hp
  obtain ⟨o', n', -, g2, g3, g3', g4, -⟩ := named_exact h k' p' hp'
  rw [hs] at h2
  rw [hs'] at g2
  simp at h2 g2
  subst h2 g2
  unfold Named.at at he
  rw [tagged_index h k p hp, tagged_index h k' p' hp', h3, g3] at he
  simp only [Option.pure_def, Option.bind_eq_bind, Option.bind_some, Option.some.injEq] at he
  rw [← Int.natCast_add, ← Int.natCast_add] at he
  obtain ⟨e1, e2⟩ := cells_distinct h.holds (o + c) i (o' + c') i' (by omega) hi (by omega) hi' he
  have a1 := (consecutive_get _ _ _ h.consecutive k _ _ h3 h3').2.2.2 k' (o' : Int)
  have a2 := (consecutive_get _ _ _ h.consecutive k' _ _ g3 g3').2.2.2 k (o : Int)
  have ek : k = k' := by
    rcases Nat.lt_trichotomy k k' with q | q | q
    · have := a1 q g3; omega
    · exact q
    · have := a2 q h3; omega
  subst ek
  rw [hp] at hp'
  rw [h3] at g3
  simp at hp' g3
  exact ⟨hp', by omega, e2⟩

/-- A tile of a view with names: the same properties, the elements of the tile. -/
theorem named_tile_exact (h : Tagged w tiles nch lane f) (k : Nat) (p : ν) (hp : w.names[k]? = some p) (o s : Int)
    (ho : w.offset p = some o) (hs : w.size p = some s) (c t l : Nat) (hc : (c : Int) < s) (ht : t < tiles) (hl : l < lane) :
    ((w.tile t).at p c l).bind (w.tile t).base.read = some (f (o.toNat + c) (t * lane + l)) := by
  obtain ⟨a, n, h1, h2, h3, -, h4, -⟩ := named_exact h k p hp
  rw [ho] at h1
  rw [hs] at h2
  simp at h1 h2
  subst h1 h2
  unfold Named.at
  have e : (w.tile t).index p = k := tagged_index h k p hp
  have e' : (w.tile t).offsets[k]? = some (a : Int) := h3
  rw [e, e']
  have := tile_exact h.holds (a + c) t l (by omega) ht hl
  simpa [Named.tile] using this

/-- A name that is not a property reads the arrays of offsets and sizes behind their end, in every access. -/
theorem unknown_violated (h : Tagged w tiles nch lane f) (p : ν) (hp : p ∉ w.names) (n : Nat) (c : Int) (i : Nat) :
    w.at p c i = none ∧ w.at0 p i = none ∧ w.pack n p c i = none ∧ w.tuple n p c i = none ∧ w.size p = none ∧ w.offset p = none := by
  have e : w.index p = w.names.length := by
    unfold Named.index
    rw [indexGo_not_mem p _ 0 hp, Nat.zero_add]
  have e1 : w.offsets[w.index p]? = none := List.getElem?_eq_none (by rw [e, h.offsets]; exact Nat.le_refl _)
  have e2 : w.sizes[w.index p]? = none := List.getElem?_eq_none (by rw [e, h.sizes]; exact Nat.le_refl _)
  simp [Named.at, Named.at0, Named.pack, Named.tuple, Named.size, Named.offset, e1, e2]

end named

/-- Two tiles of four elements with the properties mass (1), position (3). -/
def sample : Named String (Nat × Nat) where
  base := { mem := layout 2 4 4, off := 0, lane := 4, nch := 4, within := false }
  names := ["m", "x"]
  offsets := [0, 1]
  sizes := [1, 3]

theorem sample_tagged : Tagged sample 2 4 4 Prod.mk where
  holds := ⟨by simp [sample], rfl, rfl, rfl, rfl, by decide⟩
  nodup := by decide
  offsets := rfl
  sizes := rfl
  consecutive := by simp [Consecutive, sample]
  total := by decide

example : (sample.at "x" 2 5).bind sample.base.read = some (3, 5) := by decide +kernel

example : sample.pack 3 "x" 0 6 = some [(1, 6), (2, 6), (3, 6)] := by decide +kernel

/-- The channel of a property is not compared to its size: channel 1 of the mass is the position, and the channel behind the last one is the
mass of an element of the next tile. -/
theorem beyond_violated : sample.at "m" 1 5 = sample.at "x" 0 5 ∧ sample.at "x" 3 1 = sample.at "m" 0 5 := by decide +kernel

end Verif.LiteTile
