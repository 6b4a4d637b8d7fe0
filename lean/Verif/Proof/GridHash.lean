import Verif.Proof.GridCells

/-! Helper lemmas for `restructure`: the tables of the target. -/
namespace Verif.Grid

variable {V : Type} {lay : Layout} {dim : Nat} {g d : Grid V} {p : Topo V} {i : Nat} {l : Level V}

theorem mapM_getElem? {α β : Type} {f : α → Option β} : ∀ (xs : List α) (ys : List β), xs.mapM f = some ys →
    ys.length = xs.length ∧ ∀ (k : Nat) x, xs[k]? = some x → f x = ys[k]?
  | [], ys, h => by cases h; exact ⟨rfl, fun k x hx => by simp at hx⟩
  | x :: xs, ys, h => by
    rw [List.mapM_cons] at h
    cases h1 : f x with
    | none => rw [h1] at h; cases h
    | some y =>
      rw [h1] at h
      cases h2 : xs.mapM f with
      | none => rw [h2] at h; cases h
      | some ys' =>
        rw [h2] at h
        cases h
        obtain ⟨e1, e2⟩ := mapM_getElem? xs ys' h2
        refine ⟨by simp [e1], fun k z hz => ?_⟩
        cases k with
        | zero => simp at hz; subst hz; simpa using h1
        | succ k => simp at hz; simpa using e2 k z hz

/-! ## Active cells -/

theorem tileSize_pos (lay : Layout) (dim i : Nat) : 0 < tileSize lay dim i := Nat.pow_pos (Nat.two_pow_pos _)

theorem tileSize_lt (hv : lay.Valid dim) {i : Nat} (hi : i < lay.levels) : tileSize lay dim i < 2 ^ 32 := by
  rw [tileSize, ← Nat.pow_mul, Nat.mul_comm]
  exact Nat.pow_lt_pow_right (by omega) (hv.tile i hi)

theorem offset_toNat (hv : lay.Valid dim) {i : Nat} (hi : i < lay.levels) {o : Nat} (ho : o < tileSize lay dim i) : (BitVec.ofNat 32 o).toNat = o := by
  have := tileSize_lt hv hi
  rw [BitVec.toNat_ofNat, Nat.mod_eq_of_lt (by omega)]

/-- The coordinate of a cell of a block. -/
theorem cell_coord (hv : lay.Valid dim) {i : Nat} (hi : i < lay.levels) {k : Coord} (hk : coordToKey lay i k = k) (hl : k.length = dim) {o : Nat}
    (ho : o < tileSize lay dim i) : (addCoord k (tileCoord lay i dim (BitVec.ofNat 32 o))).length = dim
      ∧ coordToKey lay i (addCoord k (tileCoord lay i dim (BitVec.ofNat 32 o))) = k
      ∧ (tileOffset lay i (addCoord k (tileCoord lay i dim (BitVec.ofNat 32 o)))).toNat = o
      ∧ keyOf (lay.sbit i) (addCoord k (tileCoord lay i dim (BitVec.ofNat 32 o))) = addCoord k (tileCoord lay i dim (BitVec.ofNat 32 o)) := by
  have e : addCoord k (tileCoord lay i dim (BitVec.ofNat 32 o)) = iCoord lay i k (BitVec.ofNat 32 o) := by rw [iCoord, hl]
  rw [e]
  have hn := offset_toNat hv hi ho
  obtain ⟨h1, h2⟩ := coord_of_iCoord hv hi k hk hl (BitVec.ofNat 32 o) (by rw [hn]; exact ho)
  have hlen : (iCoord lay i k (BitVec.ofNat 32 o)).length = dim := by rw [← coordToKey_length lay i, h1, hl]
  refine ⟨hlen, h1, by rw [h2, hn], ?_⟩
  have h3 := (iCoord_of_coord hv hi _ hlen).1
  rw [h1, h2] at h3
  exact h3.symm

/-- A corner is the cell with its offset. -/
theorem corner_cell (hv : lay.Valid dim) {i : Nat} (hi : i < lay.levels) {c : Coord} (hc : c.length = dim) (hk : keyOf (lay.sbit i) c = c) :
    addCoord (coordToKey lay i c) (tileCoord lay i dim (BitVec.ofNat 32 (tileOffset lay i c).toNat)) = c := by
  have h3 := (iCoord_of_coord hv hi c hc).1
  rw [iCoord, coordToKey_length, hc, hk] at h3
  rw [BitVec.ofNat_toNat, BitVec.setWidth_eq]
  exact h3

/-- The corners of active cells of a level. -/
def Corner (g : Grid V) (i : Nat) (y : Coord) : Prop := y.length = g.dim ∧ keyOf (g.lay.sbit i) y = y ∧ ActiveAt g i y

theorem activeCells_spec (hs : Source p g) (hl : g.levels[i]? = some l) :
    ∃ cells, activeCells g.lay g.dim i l = some cells ∧ ∀ y, y ∈ cells ↔ Corner g i y := by
  have hv := hs.consistent.valid
  have hi : i < g.lay.levels := by rw [← hs.consistent.count]; exact (List.getElem?_eq_some_iff.1 hl).1
  have hok := hs.consistent.level i l hl
  have hpos := tileSize_pos g.lay g.dim i
  have hone : ∀ b o, b < l.tab.cnt → o < tileSize g.lay g.dim i → ∃ m, l.valueMask.data[b]? = some m ∧ BitMask.isOn m o = some (BitMask.bit m o) := by
    intro b o hb ho
    have hm : b < l.valueMask.data.length := Nat.lt_of_lt_of_le hb hok.values
    refine ⟨_, List.getElem?_eq_getElem hm, BitMask.isOn_eq ?_⟩
    have h1 := (hs.full i l hl).2 b _ hb (List.getElem?_eq_getElem hm)
    have h2 := words_bound ((2 ^ g.lay.tileBits i) ^ g.dim)
    rw [tileSize] at ho
    omega
  have hb : ∀ k, k < l.tab.cnt * tileSize g.lay g.dim i → k / tileSize g.lay g.dim i < l.tab.cnt := fun k hk =>
    Nat.div_lt_of_lt_mul (by rw [Nat.mul_comm]; exact hk)
  let f : Nat → Option Coord := fun k => (activeCell g.lay g.dim i l k).getD none
  have hf : ∀ k ∈ List.range (l.tab.cnt * tileSize g.lay g.dim i), activeCell g.lay g.dim i l k = some (f k) := by
    intro k hk
    obtain ⟨m, e1, e2⟩ := hone _ _ (hb k (List.mem_range.1 hk)) (Nat.mod_lt k hpos)
    simp only [f, activeCell, e1, e2, Option.bind_some, Option.map_some, Option.getD_some]
  refine ⟨_, by rw [activeCells, mapM_some _ _ _ hf]; rfl, fun y => ?_⟩
  rw [List.mem_filterMap]
  simp only [List.mem_map, List.mem_range, id]
  constructor
  · rintro ⟨_, ⟨k, hk, rfl⟩, hy⟩
    have hcnt := hb k hk
    have hmod := Nat.mod_lt k hpos
    obtain ⟨m, e1, e2⟩ := hone _ _ hcnt hmod
    simp only [f, activeCell, e1, e2, Option.bind_some, Option.map_some, Option.getD_some] at hy
    split at hy
    · rename_i hbit
      cases hy
      obtain ⟨c1, c2, c3, c4⟩ := cell_coord hv hi (hok.aligned _ hcnt) (hok.length _ hcnt) hmod
      exact ⟨c1, c4, l, _, m, ⟨hl, hcnt, c2.symm⟩, e1, by rw [c3]; exact hbit⟩
    · cases hy
  · rintro ⟨c1, c2, l', b, m, ⟨h1, h2, h3⟩, h4, h5⟩
    rw [hl] at h1
    cases h1
    have ho : (tileOffset g.lay i y).toNat < tileSize g.lay g.dim i := (tileOffset_spec hv hi y c1).2
    refine ⟨_, ⟨b * tileSize g.lay g.dim i + (tileOffset g.lay i y).toNat, ?_, rfl⟩, ?_⟩
    · calc b * tileSize g.lay g.dim i + (tileOffset g.lay i y).toNat < (b + 1) * tileSize g.lay g.dim i := by rw [Nat.add_mul]; omega
        _ ≤ _ := Nat.mul_le_mul_right _ h2
    · have ed : (b * tileSize g.lay g.dim i + (tileOffset g.lay i y).toNat) / tileSize g.lay g.dim i = b := by
        rw [Nat.mul_comm, Nat.mul_add_div hpos, Nat.div_eq_of_lt ho, Nat.add_zero]
      have em : (b * tileSize g.lay g.dim i + (tileOffset g.lay i y).toNat) % tileSize g.lay g.dim i = (tileOffset g.lay i y).toNat := by
        rw [Nat.mul_comm, Nat.mul_add_mod, Nat.mod_eq_of_lt ho]
      obtain ⟨m', e1, e2⟩ := hone b _ h2 ho
      rw [h4] at e1
      cases e1
      simp only [f, activeCell, ed, em, h4, e2, Option.bind_some, Option.map_some, Option.getD_some, h5, if_true]
      rw [h3, corner_cell hv hi c1 c2]

/-! ## Tables -/

/-- A level of the target before it gets storage. -/
structure Blank (lay : Layout) (dim j : Nat) (l : Level V) : Prop where
  B : 2 ≤ l.cfg.B
  hole : l.cfg.hole = List.replicate dim 0x3f3f3f3f#32
  sound : Bht.Sound l.cfg l.tab
  room : l.tab.cnt ≤ l.cfg.size
  keys : KeysOk lay dim j l
  tiles : l.tiles = []
  values : l.valueMask = ⟨[], 0⟩
  childs : l.childMask = ⟨[], 0⟩

/-- The target after the active cells of the levels below `n` were registered. -/
structure Hashed (g : Grid V) (dst : Layout) (n : Nat) (d : Grid V) : Prop where
  lay : d.lay = dst
  dim : d.dim = g.dim
  background : d.background = g.background
  count : d.levels.length = dst.levels
  level : ∀ (j : Nat) ld, d.levels[j]? = some ld → Blank dst g.dim j ld
  keys : ∀ (j : Nat) ld, d.levels[j]? = some ld → ∀ k,
    (∃ b < ld.tab.cnt, ld.tab.active b = k) ↔ ∃ i < n, dst.closest (g.lay.sbit i) = j ∧ ∃ y, Corner g i y ∧ coordToKey dst j y = k

theorem Good.seen {α : Type} {m : Run α} {P : α → Prop} (h : Good m P) : Good m fun a => P a ∧ m (.ok a) :=
  ⟨h.1, fun o ho => let ⟨a, e, pa⟩ := h.2 o ho; ⟨a, e, pa, e ▸ ho⟩⟩

theorem hashed_zero {cfgs : Nat → Bht.Cfg Coord} (ht : Tables g.dim lay cfgs) (act : Nat → Coord) (indices : Nat → Nat) :
    Hashed g lay 0 (freshGrid g lay cfgs act indices) := by
  have hget : ∀ (j : Nat) ld, (freshGrid g lay cfgs act indices).levels[j]? = some ld → j < lay.levels ∧ ld = freshLevel (cfgs j) act indices := by
    intro j ld h
    simp only [freshGrid, List.getElem?_map] at h
    by_cases hj : j < lay.levels
    · simp [hj] at h
      exact ⟨hj, h.symm⟩
    · simp [hj] at h
  refine ⟨rfl, rfl, rfl, by simp [freshGrid], ?_, ?_⟩
  · intro j ld h
    obtain ⟨hj, rfl⟩ := hget j ld h
    exact ⟨ht.B j hj, ht.hole j hj, ⟨fun a ha => (ha rfl).elim, fun a ha => (ha rfl).elim, fun i hi => (Nat.not_lt_zero i hi).elim⟩, Nat.zero_le _,
      fun b hb => (Nat.not_lt_zero b hb).elim, rfl, rfl, rfl⟩
  · intro j ld h k
    obtain ⟨hj, rfl⟩ := hget j ld h
    exact ⟨fun ⟨b, hb, _⟩ => (Nat.not_lt_zero b hb).elim, fun ⟨i, hi, _⟩ => (Nat.not_lt_zero i hi).elim⟩

/-- The target level for level `n` after the enlargement. -/
structure Reserved (p : Topo V) (g d1 : Grid V) (n : Nat) (l : Level V) (d2 : Grid V) : Prop where
  mk ::
  level : ∃ ld r, d1.levels[d1.lay.closest (g.lay.sbit n)]? = some ld ∧ Enlarged p.next2pow (estimate g d1 n l ld) ld.cfg ld.tab r
    ∧ d2 = d1.setLevel (d1.lay.closest (g.lay.sbit n)) { ld with cfg := r.1, tab := r.2 }

theorem reserve_good (hp : ∀ n, n ≤ p.next2pow n) {n : Nat} {d1 : Grid V} (hl : g.levels[n]? = some l) (h0 : 0 < lay.levels) (h : Hashed g lay n d1) :
    Good (reserveLevel p g d1 n) (Reserved p g d1 n l) := by
  have hj := closest_lt lay (g.lay.sbit n) h0
  have hlen : lay.closest (g.lay.sbit n) < d1.levels.length := by rw [h.count]; exact hj
  unfold reserveLevel
  rw [h.lay]
  refine Good.bind (P := (· = l)) (Good.ofOption ⟨l, hl, rfl⟩) fun _ e => ?_
  subst e
  rename_i l
  refine Good.bind (P := fun ld => d1.levels[lay.closest (g.lay.sbit n)]? = some ld) (Good.ofOption ⟨_, List.getElem?_eq_getElem hlen, List.getElem?_eq_getElem hlen⟩) fun ld hld => ?_
  have hb := h.level _ _ hld
  refine Good.bind (growTable_good (hp _) hb.B hb.sound (Nat.le_add_right _ _)) fun r hr => ?_
  exact Good.pure ⟨ld, r, by rw [h.lay]; exact hld, hr, by rw [h.lay]⟩

/-- The target level after the insertion. -/
structure Filled (g d2 : Grid V) (n : Nat) (cells : List Coord) (d3 : Grid V) : Prop where
  mk ::
  level : ∃ ld tab, d2.levels[d2.lay.closest (g.lay.sbit n)]? = some ld
    ∧ Inserted ld.cfg (fun t => coordToKey d2.lay (d2.lay.closest (g.lay.sbit n)) (cells.getD t [])) cells.length ld.tab tab
    ∧ d3 = d2.setLevel (d2.lay.closest (g.lay.sbit n)) { ld with tab := tab }

theorem setLevel_self {j : Nat} (x : Level V) (h : j < d.levels.length) : (d.setLevel j x).levels[j]? = some x := by
  rw [Grid.setLevel, List.getElem?_set_self h]

theorem setLevel_ne {j k : Nat} (x : Level V) (h : j ≠ k) : (d.setLevel j x).levels[k]? = d.levels[k]? := by
  rw [Grid.setLevel]
  exact List.getElem?_set_ne h

theorem fill_good (hs : Source p g) {n : Nat} {d1 d2 : Grid V} (hl : g.levels[n]? = some l) (hv : lay.Valid g.dim) (h : Hashed g lay n d1)
    (hr : Reserved p g d1 n l d2) (hu : Unrefused d2) {cells : List Coord} (hcells : activeCells g.lay g.dim n l = some cells)
    (hmem : ∀ y, y ∈ cells ↔ Corner g n y) : Good (fillLevel g d2 n) (Filled g d2 n cells) := by
  have hj := closest_lt lay (g.lay.sbit n) hv.some
  have hlen : lay.closest (g.lay.sbit n) < d1.levels.length := by rw [h.count]; exact hj
  obtain ⟨ld, r, hld, he, rfl⟩ := hr.level
  rw [h.lay] at hld hu ⊢
  have hb := h.level _ _ hld
  have hlay : (d1.setLevel (lay.closest (g.lay.sbit n)) { ld with cfg := r.1, tab := r.2 }).lay = lay := h.lay
  have hself : (d1.setLevel (lay.closest (g.lay.sbit n)) { ld with cfg := r.1, tab := r.2 }).levels[lay.closest (g.lay.sbit n)]?
      = some { ld with cfg := r.1, tab := r.2 } := setLevel_self _ hlen
  have hok : r.2.success = true := hu _ (List.mem_of_getElem? hself)
  obtain ⟨old, hseen⟩ := he.seen
  have hcl : ∀ t < cells.length, (cells.getD t []).length = g.dim := by
    intro t ht
    have : cells.getD t [] ∈ cells := by simp [List.getD, ht]
    exact ((hmem _).1 this).1
  unfold fillLevel
  rw [hlay]
  refine Good.bind (P := (· = l)) (Good.ofOption ⟨l, hl, rfl⟩) fun _ e => ?_
  subst e
  rename_i l
  refine Good.bind (P := (· = { ld with cfg := r.1, tab := r.2 })) (Good.ofOption ⟨_, hself, rfl⟩) fun _ e => ?_
  subst e
  refine Good.bind (P := (· = cells)) (Good.ofOption ⟨cells, hcells, rfl⟩) fun _ e => ?_
  subst e
  rename_i cells
  refine Good.bind (insertKeys_good (c := r.1) (s := r.2) (by rw [he.B]; exact hb.B) hseen he.sound ?_ ?_ (.inr (he.sound hok))) fun tab ht => ?_
  · intro hN
    refine he.buckets ?_
    have : cells ≠ [] := by rintro rfl; exact hN rfl
    obtain ⟨y, hy⟩ := List.exists_mem_of_ne_nil cells this
    obtain ⟨_, _, l', b, m, ⟨k1, k2, _⟩, _⟩ := (hmem y).1 hy
    rw [hl] at k1
    cases k1
    rw [estimate]
    have : 0 < (2 ^ (g.lay.ebit n - d1.lay.ebit (d1.lay.closest (g.lay.sbit n)))) ^ g.dim := Nat.pow_pos (Nat.two_pow_pos _)
    have := Nat.mul_pos (show 0 < l.tab.cnt by omega) this
    omega
  · intro t ht
    rw [he.hole, hb.hole]
    exact (key_ne_marker hv hj hs.consistent.dim _ (hcl t ht)).1
  · exact Good.pure ⟨_, tab, by rw [hlay]; exact hself, by rw [hlay]; exact ht, by rw [hlay]⟩

/-- One level more. -/
theorem hashed_succ {n : Nat} {d1 d2 d3 : Grid V} (h0 : 0 < lay.levels) (h : Hashed g lay n d1)
    (hr : Reserved p g d1 n l d2) {cells : List Coord} (hmem : ∀ y, y ∈ cells ↔ Corner g n y) (hf : Filled g d2 n cells d3) (hu : Unrefused d3) :
    Hashed g lay (n + 1) d3 := by
  have hj := closest_lt lay (g.lay.sbit n) h0
  have hlen : lay.closest (g.lay.sbit n) < d1.levels.length := by rw [h.count]; exact hj
  obtain ⟨ld, r, hld, he, rfl⟩ := hr.level
  rw [h.lay] at hld hf
  obtain ⟨ld2, tab, hld2, hi, rfl⟩ := hf.level
  have hlay : (d1.setLevel (lay.closest (g.lay.sbit n)) { ld with cfg := r.1, tab := r.2 }).lay = lay := h.lay
  rw [hlay] at hld2 hi hu ⊢
  rw [setLevel_self _ hlen] at hld2
  cases hld2
  have hlen2 : lay.closest (g.lay.sbit n) < (d1.setLevel (lay.closest (g.lay.sbit n)) { ld with cfg := r.1, tab := r.2 }).levels.length := by
    rw [Grid.setLevel, List.length_set]; exact hlen
  have hself := setLevel_self (d := d1.setLevel (lay.closest (g.lay.sbit n)) { ld with cfg := r.1, tab := r.2 })
    { ld with cfg := r.1, tab := tab } hlen2
  have hok : tab.success = true := hu _ (List.mem_of_getElem? hself)
  obtain ⟨_, hsound, hall⟩ := hi.sound hok
  have hb := h.level _ _ hld
  have hcell : ∀ t < cells.length, Corner g n (cells.getD t []) := by
    intro t ht
    have : cells.getD t [] ∈ cells := by simp [List.getD, ht]
    exact (hmem _).1 this
  have hold : ∀ b < ld.tab.cnt, tab.active b = ld.tab.active b := fun b hb => by
    rw [hi.old b (by rw [he.cnt]; exact hb), he.active]
  have hnew : ∀ b, ld.tab.cnt ≤ b → b < tab.cnt → ∃ t < cells.length, tab.active b = coordToKey lay (lay.closest (g.lay.sbit n)) (cells.getD t []) :=
    fun b h1 h2 => hi.new b (by rw [he.cnt]; exact h1) h2
  have hle : ld.tab.cnt ≤ tab.cnt := by have := hi.le; rw [he.cnt] at this; exact this
  refine ⟨h.lay, h.dim, h.background, ?_, ?_, ?_⟩
  · simp only [Grid.setLevel, List.length_set]; exact h.count
  · intro j lj hlj
    by_cases ej : lay.closest (g.lay.sbit n) = j
    · subst ej
      rw [hself] at hlj
      cases hlj
      refine ⟨by rw [he.B]; exact hb.B, by rw [he.hole]; exact hb.hole, hsound, hi.room, ?_, hb.tiles, hb.values, hb.childs⟩
      intro b hb'
      rcases Nat.lt_or_ge b ld.tab.cnt with hx | hx
      · show (tab.active b).length = _ ∧ coordToKey _ _ (tab.active b) = tab.active b
        rw [hold b hx]; exact hb.keys b hx
      · obtain ⟨t, h1, e⟩ := hnew b hx hb'
        show (tab.active b).length = _ ∧ coordToKey _ _ (tab.active b) = tab.active b
        rw [e]
        exact ⟨by rw [coordToKey_length]; exact (hcell t h1).1, coordToKey_idem _ _ _⟩
    · rw [setLevel_ne _ ej, setLevel_ne _ ej] at hlj
      exact h.level j lj hlj
  · intro j lj hlj k
    by_cases ej : lay.closest (g.lay.sbit n) = j
    · subst ej
      rw [hself] at hlj
      cases hlj
      show (∃ b < tab.cnt, tab.active b = k) ↔ _
      constructor
      · rintro ⟨b, hb', rfl⟩
        rcases Nat.lt_or_ge b ld.tab.cnt with hx | hx
        · obtain ⟨i, hi', e, y, hy, hk⟩ := (h.keys _ ld hld _).1 ⟨b, hx, rfl⟩
          exact ⟨i, by omega, e, y, hy, by rw [hold b hx]; exact hk⟩
        · obtain ⟨t, h1, e⟩ := hnew b hx hb'
          exact ⟨n, by omega, rfl, _, hcell t h1, e.symm⟩
      · rintro ⟨i, hi', e, y, hy, hk⟩
        by_cases ei : i = n
        · subst ei
          obtain ⟨t, ht, e'⟩ := List.getElem_of_mem ((hmem y).2 hy)
          obtain ⟨b, hb', e2⟩ := hall t ht
          refine ⟨b, hb', ?_⟩
          rw [e2, ← hk, ← e']
          simp [List.getD, ht]
        · obtain ⟨b, hb', e2⟩ := (h.keys _ ld hld k).2 ⟨i, by omega, e, y, hy, hk⟩
          exact ⟨b, by omega, by rw [hold b hb']; exact e2⟩
    · rw [setLevel_ne _ ej, setLevel_ne _ ej] at hlj
      rw [h.keys j lj hlj k]
      constructor
      · rintro ⟨i, hi', r⟩; exact ⟨i, by omega, r⟩
      · rintro ⟨i, hi', e, r⟩
        have : i ≠ n := by rintro rfl; exact ej e
        exact ⟨i, by omega, e, r⟩

theorem hashUp_good (hs : Source p g) (hp : ∀ n, n ≤ p.next2pow n) (hv : lay.Valid g.dim) (h0 : Hashed g lay 0 d) : ∀ n ≤ g.lay.levels,
    (∀ m < n, ∀ d1 d2, hashUp p g d m (.ok d1) → reserveLevel p g d1 m (.ok d2) → Unrefused d2) →
    (∀ m ≤ n, ∀ d1, hashUp p g d m (.ok d1) → Unrefused d1) → Good (hashUp p g d n) (Hashed g lay n) := by
  intro n
  induction n with
  | zero => intro _ _ _; exact Good.pure h0
  | succ n ih =>
    intro hn h1 h2
    have hg := (ih (by omega) (fun m hm => h1 m (by omega)) (fun m hm => h2 m (by omega))).seen
    obtain ⟨l, hl⟩ : ∃ l, g.levels[n]? = some l := ⟨_, List.getElem?_eq_getElem (by rw [hs.consistent.count]; omega)⟩
    obtain ⟨cells, hcells, hmem⟩ := activeCells_spec hs hl
    have key : Good (hashUp p g d (n + 1)) fun d3 => ∃ d1 d2, Hashed g lay n d1 ∧ Reserved p g d1 n l d2 ∧ Filled g d2 n cells d3 := by
      refine Good.bind hg fun d1 ⟨hh, hrun⟩ => ?_
      refine Good.bind (reserve_good hp hl hv.some hh).seen fun d2 ⟨hr, hrun2⟩ => ?_
      exact (fill_good hs hl hv hh hr (h1 n (by omega) d1 d2 hrun hrun2) hcells hmem).mono fun d3 h3 => ⟨d1, d2, hh, hr, h3⟩
    refine key.seen.mono fun d3 ⟨⟨d1, d2, hh, hr, hf⟩, hrun⟩ => hashed_succ hv.some hh hr hmem hf (h2 (n + 1) (Nat.le_refl _) d3 hrun)

end Verif.Grid
