import Verif.Proof.GridRestructure
import Verif.Props.GridComplement

/-!
`AdaptiveGrid::restructure` (C69): active cells keep their values in a grid with another layout, and nothing else becomes active, if the layouts
suit each other and no insertion is refused; with other layouts active cells are hidden by coarser blocks, or lost.
-/
namespace Verif.Grid

variable {V : Type} {lay : Layout} {g g' : Grid V} {p : Topo V} {cfgs : Nat → Bht.Cfg Coord}

theorem restructure_runs (code : Coord → Nat) (hs : Source p g) (hp : ∀ n, n ≤ p.next2pow n) (hv : lay.Valid g.dim) (ht : Tables g.dim lay cfgs)
    (hst : ∀ act indices, Steady p g (freshGrid g lay cfgs act indices))
    (hfit : ∀ act indices d1, transfer p g (freshGrid g lay cfgs act indices) (.ok d1) → ∀ g1, complementUp p d1 d1.top (.ok g1) → Fits g1) :
    (∃ o, restructure p code g lay cfgs o)
      ∧ ∀ o, restructure p code g lay cfgs o → ∃ g', o = .ok g' ∧ ∃ d1, Transferred p g lay d1 ∧ Completed p d1 g' := by
  show Good _ _
  unfold restructure
  refine Good.bind (Good.pick ⟨fun _ => [], trivial⟩) fun act _ => ?_
  refine Good.bind (Good.pick ⟨fun _ => 0, trivial⟩) fun indices _ => ?_
  refine Good.bind (transfer_good hs hp hv (hashed_zero ht act indices) (hst act indices)).seen fun d1 ⟨⟨h1, _⟩, hrun⟩ => ?_
  have hc : Good (complementTopo p code d1) (Completed p d1) := complement_completes code h1.ready (hfit act indices d1 hrun)
  exact hc.mono fun g' h2 => ⟨d1, h1, h2⟩

/-- A consistent, ordered source with storage of the right size, tables that refuse no insertion for any schedule: the call always succeeds.
If the cells of the source fit into blocks of the target, nothing becomes active; if the blocks of the target that are finer than a cell
are no larger than the blocks of the source that are, all active values are kept. -/
theorem restructure_moves (code : Coord → Nat) (hs : Source p g) (hp : ∀ n, n ≤ p.next2pow n) (hv : lay.Valid g.dim) (ht : Tables g.dim lay cfgs)
    (hh : g.lay.Holds lay) (hst : ∀ act indices, Steady p g (freshGrid g lay cfgs act indices))
    (hfit : ∀ act indices d1, transfer p g (freshGrid g lay cfgs act indices) (.ok d1) → ∀ g1, complementUp p d1 d1.top (.ok g1) → Fits g1) :
    (∃ o, restructure p code g lay cfgs o)
      ∧ ∀ o, restructure p code g lay cfgs o → ∃ g', o = .ok g' ∧ Moved p g lay g' ∧ (g.lay.Spares lay → Keeps p g g') :=
  have h := restructure_runs code hs hp hv ht hst hfit
  ⟨h.1, fun o ho => let ⟨g', e, _, h1, h2⟩ := h.2 o ho; ⟨g', e, h1.moved hs hv hh h2, fun hsp => h1.keeps hs hv hh hsp h2⟩⟩

theorem few_runs (code : Coord → Nat) (hs : Source p g) (hp : ∀ n, n ≤ p.next2pow n) (hv : lay.Valid g.dim) (ht : Tables g.dim lay cfgs)
    (hf : FewCells p g lay cfgs) : (∃ o, restructure p code g lay cfgs o)
      ∧ ∀ o, restructure p code g lay cfgs o → ∃ g', o = .ok g' ∧ ∃ d1, Transferred p g lay d1 ∧ Completed p d1 g' := by
  refine restructure_runs code hs hp hv ht
    (fun act indices => hf.steady hs hp hv (hashed_zero ht act indices) (roomy_zero hf act indices)) fun act indices d1 hrun g1 hg1 => ?_
  have h0 := hashed_zero (g := g) ht act indices
  have hr0 := roomy_zero (g := g) hf act indices
  obtain ⟨_, e, h1, d0, hd0, _, hsame⟩ := (transfer_good hs hp hv h0 (hf.steady hs hp hv h0 hr0)).2 _ hrun
  cases e
  obtain ⟨_, e, hh, hro⟩ := (hashUp_few hs hp hv hf h0 hr0 g.lay.levels (Nat.le_refl _)).2 _ hd0
  cases e
  obtain ⟨_, e, hu⟩ := (complementUp_good h1.ready d1.top (top_lt h1.ready.valid)).2 _ hg1
  cases e
  have hlev : ∀ l ∈ d1.levels, ∃ l0 ∈ d0.levels, l.cfg = l0.cfg ∧ l.tab = l0.tab := by
    intro l hl
    obtain ⟨j, hj, e⟩ := List.getElem_of_mem hl
    obtain ⟨l0, k1, k2, k3⟩ := hsame j l (by rw [List.getElem?_eq_getElem hj, e])
    exact ⟨l0, List.mem_of_getElem? k1, k2, k3⟩
  refine Few.fits h1.ready ⟨?_, ?_, ?_, ?_, ?_, hf.pow⟩ hu
  · intro l hl
    obtain ⟨l0, m, k1, k2⟩ := hlev l hl
    rw [k1]; exact hro.B l0 m
  · intro l hl
    obtain ⟨l0, m, k1, k2⟩ := hlev l hl
    rw [k1]; exact hro.width l0 m
  · intro l hl
    obtain ⟨l0, m, k1, k2⟩ := hlev l hl
    rw [k1]; exact hro.size l0 m
  · intro l hl
    obtain ⟨l0, m, k1, k2⟩ := hlev l hl
    rw [k2]; exact hro.success l0 m
  · have e : d1.levels.map (fun l => l.tab.cnt) = d0.levels.map fun l => l.tab.cnt := by
      apply List.ext_getElem?
      intro j
      rw [List.getElem?_map, List.getElem?_map]
      cases h : d1.levels[j]? with
      | some l =>
        obtain ⟨l0, k1, k2, k3⟩ := hsame j l h
        rw [k1, Option.map_some, Option.map_some, k3]
      | none =>
        have : d0.levels[j]? = none := by
          rw [List.getElem?_eq_none_iff] at h ⊢
          rw [hh.count]
          rw [h1.ready.count, h1.lay] at h
          exact h
        rw [this]
    have h2 := hro.few
    have h3 := hf.few
    rw [← e] at h2
    omega

/-- With at most 12 active cells no insertion is ever refused. -/
theorem restructure_few (code : Coord → Nat) (hs : Source p g) (hp : ∀ n, n ≤ p.next2pow n) (hv : lay.Valid g.dim) (ht : Tables g.dim lay cfgs)
    (hh : g.lay.Holds lay) (hf : FewCells p g lay cfgs) : (∃ o, restructure p code g lay cfgs o)
      ∧ ∀ o, restructure p code g lay cfgs o → ∃ g', o = .ok g' ∧ Moved p g lay g' ∧ (g.lay.Spares lay → Keeps p g g') :=
  have h := few_runs code hs hp hv ht hf
  ⟨h.1, fun o ho => let ⟨g', e, _, h1, h2⟩ := h.2 o ho; ⟨g', e, h1.moved hs hv hh h2, fun hsp => h1.keeps hs hv hh hsp h2⟩⟩

/-- Exactly the same coordinates are active before and after, and `valueOr` gives the same. -/
theorem restructure_valueOr (hs : Source p g) (h : Moved p g lay g') (hk : Keeps p g g') {chn : Nat} (hchn : chn < p.chns) {c : Coord}
    (hcl : c.length = g.dim) (v : V) : valueOr g' chn c v = valueOr g chn c v := by
  obtain ⟨⟨f, x⟩, hr⟩ := probe_some hs true hchn c hcl
  cases f with
  | true => rw [valueOr, valueOr, hk true chn hchn c hcl x hr, hr]
  | false =>
    obtain ⟨x', hr'⟩ := h.inactive true chn hchn c hcl x hr
    rw [valueOr, valueOr, hr, hr']
    rfl

/-! ## Layouts -/

theorem closest_self (hv : lay.Valid dim) (hpos : ∀ i, i + 1 < lay.levels → 0 < lay.scalingBits i) {i : Nat} (hi : i < lay.levels) :
    lay.closest (lay.sbit i) = i := by
  have h1 := closest_max hi (Nat.le_refl (lay.sbit i))
  have h2 := closest_lt lay (lay.sbit i) hv.some
  have h3 := closest_sbit lay (lay.sbit i)
  rcases Nat.lt_or_ge i (lay.closest (lay.sbit i)) with h | h
  · exfalso
    have h4 := sbit_le hv (show i + 1 ≤ lay.closest (lay.sbit i) from h) h2
    have h5 := sbit_spec hv (show i + 1 < lay.levels by omega)
    have h6 := sbit_spec hv hi
    rw [List.range_succ, List.map_append, List.sum_append] at h5
    simp at h5
    have := hpos i (by omega)
    omega
  · omega

/-- A layout with different cell sizes suits itself. -/
theorem same_layout (hv : lay.Valid dim) (hpos : ∀ i, i + 1 < lay.levels → 0 < lay.scalingBits i) : lay.Holds lay ∧ lay.Spares lay := by
  refine ⟨fun i hi => ?_, fun i hi j hj => ?_⟩
  · rw [closest_self hv hpos hi]; exact sbit_le_ebit lay i
  · rw [closest_self hv hpos hi] at hj
    exact ebit_le lay (by omega)

/-- A tree with branches of 8, 16 and 32 and one with branches of 4: cells of 1, 8 and 128 go to levels with cells of 1, 4 and 64. -/
example : Layout.Holds ⟨[3, 4, 5], [3, 4, 5]⟩ ⟨[2, 2, 2, 2, 2], [2, 2, 2, 2, 2]⟩ ∧ Layout.Spares ⟨[3, 4, 5], [3, 4, 5]⟩ ⟨[2, 2, 2, 2, 2], [2, 2, 2, 2, 2]⟩ :=
  ⟨by unfold Layout.Holds; decide, fun i hi => (show ∀ i < 2, ∀ j < Layout.closest ⟨[2, 2, 2, 2, 2], [2, 2, 2, 2, 2]⟩ (Layout.sbit ⟨[3, 4, 5], [3, 4, 5]⟩ (i + 1)),
    Layout.ebit ⟨[2, 2, 2, 2, 2], [2, 2, 2, 2, 2]⟩ j ≤ Layout.ebit ⟨[3, 4, 5], [3, 4, 5]⟩ i by decide) i (by
      have : i + 1 < 3 := hi
      omega)⟩

/-! ## Grids -/

/-- Cells of 1 and of 4: a block of 4 with the active cell 0, in a block of two cells of 4 of which the second one is active. -/
def cornerGrid : Grid Nat where
  lay := ⟨[2, 1], [2, 1]⟩
  dim := 1
  background := 99
  levels := [
    { cfg := (blockTable [[0]]).1, tab := (blockTable [[0]]).2, tiles := [[[10, 11, 12, 13]]],
      valueMask := ⟨[[1#64]], 1⟩, childMask := ⟨[[0#64]], 1⟩, childOffset := [] },
    { cfg := (blockTable [[0]]).1, tab := (blockTable [[0]]).2, tiles := [[[20, 24]]],
      valueMask := ⟨[[2#64]], 1⟩, childMask := ⟨[[1#64]], 1⟩, childOffset := [0, 1] }]

theorem corner_level : ∀ (i : Nat) l, cornerGrid.levels[i]? = some l → l.Ready cornerGrid.lay 1 i := by
  intro i l hl
  match i, hl with
  | 0, hl | 1, hl =>
    cases hl
    refine ⟨by decide, rfl, blockTable_sound _ (by decide) (by decide) (by decide), by decide, by decide, by decide, rfl, by decide, by decide,
      by decide, by decide, ?_⟩
    intro b m hb hm
    match b, hb with
    | 0, _ => cases hm; decide

theorem corner_consistent : Consistent cornerGrid := by
  refine ⟨⟨by decide, rfl, by decide, by decide, by decide, by decide⟩, by decide, rfl, fun i l hl => (corner_level i l hl).ok, ?_⟩
  intro i l lc hl hlc
  match i, hl, hlc with
  | 0, hl, hlc =>
    cases hl; cases hlc
    refine link_of_blocks ⟨by decide, rfl, by decide, by decide, by decide, by decide⟩ (by decide) (by decide) ?_ ?_ ?_ ?_
    · intro b m hb hm
      match b, hb with
      | 0, _ => cases hm; decide
    · intro b m hb hm n hn
      match b, hb with
      | 0, _ =>
        cases hm
        by_cases h : n < 64
        · exact (show ∀ n < 64, 2 ≤ n → BitMask.bit [1#64] n = false by decide) n h hn
        · simp only [BitMask.bit, if_neg h]
    · intro b m hb hm n hn
      match b, hb with
      | 0, _ =>
        cases hm
        match n, hn with
        | 0, _ => exact ⟨fun _ => ⟨0, by decide, by decide⟩, fun _ => by decide⟩
        | 1, _ => exact ⟨fun h => absurd h (by decide), by decide⟩
    · intro b hb
      match b, hb with
      | 0, _ => exact ⟨0, by decide, by decide⟩

theorem corner_source : Source natTopo cornerGrid := by
  refine ⟨corner_consistent, ?_, ?_⟩
  · intro i l lc hl hlc c hcl p b hp hb
    have hok := corner_consistent.level _ l hl
    have hokc := corner_consistent.level _ lc hlc
    match i, hl, hlc with
    | 0, hl, hlc =>
      have h1 := ((hok.find _ p (hok.notHole corner_consistent.valid (by decide) (by decide) c hcl)).1 hp).1
      have h2 := (hokc.find _ b (hokc.notHole corner_consistent.valid (by decide) (by decide) c hcl)).1 hb
      cases hl; cases hlc
      match p, b, h1, h2 with
      | 0, 0, _, h2 =>
        rw [hierOffset_key corner_consistent.valid (by decide) (c' := [0]) (by rw [← h2.2]; decide)]
        decide
  · intro i l hl
    match i, hl with
    | 0, hl | 1, hl =>
      cases hl
      refine ⟨?_, ?_⟩
      · intro b t ht
        match b, ht with
        | 0, ht => cases ht; decide
      · intro b m hb hm
        match b, hb with
        | 0, _ => cases hm; decide

def someTables : Nat → Bht.Cfg Coord := fun _ => (blockTable []).1

theorem someTables_ok (lay : Layout) : Tables 1 lay someTables := ⟨fun _ _ => (by decide : 2 ≤ (blockTable []).1.B), fun _ _ => rfl⟩

theorem corner_few (lay : Layout) (h : ∀ i < 2, ∀ k ≤ 12, Bht.evaluateTableSize pow2 16
    (k + 1 * (2 ^ (cornerGrid.lay.ebit i - lay.ebit (lay.closest (cornerGrid.lay.sbit i)))) ^ 1) < 2 ^ 32) : FewCells natTopo cornerGrid lay someTables := by
  refine ⟨fun _ _ => rfl, fun _ _ => (by decide : 32 ≤ (blockTable []).1.width), by decide +kernel, ?_, gap_few.pow⟩
  intro i l hl
  match i, hl with
  | 0, hl => cases hl; exact h 0 (by decide)
  | 1, hl => cases hl; exact h 1 (by decide)

theorem corner_cells {i : Nat} {y : Coord} (h : Corner cornerGrid i y) : (i = 0 ∧ y = [0]) ∨ (i = 1 ∧ y = [4]) := by
  have hlt : i < 2 := by
    obtain ⟨_, _, l, b, m, hb, _⟩ := h
    exact hb.lt corner_consistent
  match i, hlt, h with
  | 0, _, h =>
    obtain ⟨cells, e, hc⟩ := activeCells_spec (i := 0) corner_source rfl
    have e' := (show activeCells cornerGrid.lay cornerGrid.dim 0 (cornerGrid.levels[0]'(by decide)) = some [[0]] by decide +kernel).symm.trans e
    cases e'
    exact .inl ⟨rfl, by simpa using (hc y).2 h⟩
  | 1, _, h =>
    obtain ⟨cells, e, hc⟩ := activeCells_spec (i := 1) corner_source rfl
    have e' := (show activeCells cornerGrid.lay cornerGrid.dim 1 (cornerGrid.levels[1]'(by decide)) = some [[4]] by decide +kernel).symm.trans e
    cases e'
    exact .inr ⟨rfl, by simpa using (hc y).2 h⟩

theorem corner_values : probeValue cornerGrid true 0 [0] = some (true, 10) ∧ probeValue cornerGrid true 0 [1] = some (false, 11)
    ∧ probeValue cornerGrid true 0 [4] = some (true, 24) ∧ probeValue cornerGrid true 0 [6] = some (true, 24) := by decide +kernel

/-- A target with cells of 1 and of 2, blocks of 2 and of 8: everything is kept. -/
example (code : Coord → Nat) : ∃ g', restructure natTopo code cornerGrid ⟨[1, 2], [1, 2]⟩ someTables (.ok g') ∧ probeValue g' true 0 [0] = some (true, 10)
    ∧ probeValue g' true 0 [4] = some (true, 24) ∧ probeValue g' true 0 [6] = some (true, 24) ∧ ∃ v, probeValue g' true 0 [1] = some (false, v) := by
  obtain ⟨⟨o, ho⟩, h2⟩ := restructure_few code corner_source gap_ready.pow (lay := ⟨[1, 2], [1, 2]⟩) ⟨by decide, rfl, by decide, by decide, by decide, by decide⟩
    (someTables_ok _) (by unfold Layout.Holds; decide) (corner_few _ (by decide +kernel))
  obtain ⟨g', rfl, hm, hk⟩ := h2 o ho
  have hk := hk (by
    intro i hi j hj
    match i, hi with
    | 0, _ =>
      match j, hj with
      | 0, _ => decide)
  exact ⟨g', ho, hk true 0 (by decide) [0] rfl _ corner_values.1, hk true 0 (by decide) [4] rfl _ corner_values.2.2.1,
    hk true 0 (by decide) [6] rfl _ corner_values.2.2.2, hm.inactive true 0 (by decide) [1] rfl _ corner_values.2.1⟩

/-- A target with blocks of 2, 8 and 16: the active cell of 4 goes to the level with blocks of 16, but the parent of the block of 2 covers it. -/
theorem restructure_hides_violated (code : Coord → Nat) :
    probeValue cornerGrid true 0 [4] = some (true, 24)
      ∧ (∃ g', restructure natTopo code cornerGrid ⟨[1, 2, 2], [1, 1, 1]⟩ someTables (.ok g'))
      ∧ ∀ g', restructure natTopo code cornerGrid ⟨[1, 2, 2], [1, 1, 1]⟩ someTables (.ok g') → ∀ ordered, probeValue g' ordered 0 [4] = some (false, 0) := by
  have hv : Layout.Valid ⟨[1, 2, 2], [1, 1, 1]⟩ cornerGrid.dim := ⟨by decide, rfl, by decide, by decide, by decide, by decide⟩
  obtain ⟨⟨o, ho⟩, h2⟩ := few_runs code corner_source gap_ready.pow hv (someTables_ok _) (corner_few _ (by decide +kernel))
  obtain ⟨g', rfl, _⟩ := h2 o ho
  refine ⟨corner_values.2.2.1, ⟨g', ho⟩, fun g' h ordered => ?_⟩
  obtain ⟨_, e, d1, ht, hc⟩ := h2 _ h
  cases e
  refine hc.made ordered 0 [4] (by rw [ht.dim]; rfl) (by decide) 1 (by rw [ht.lay]; decide) ?_ ?_ ?_
  · intro j hj hcov
    match j, hj with
    | 0, _ =>
      obtain ⟨i, hi, e1, y, hy, e2⟩ := (ht.covered hv (by decide)).1 hcov
      rcases corner_cells hy with ⟨rfl, rfl⟩ | ⟨rfl, rfl⟩
      · exact absurd e2 (by decide)
      · exact absurd e1 (by decide)
  · refine (ht.covered hv (by decide)).2 ⟨0, by decide, by decide, [0], ⟨rfl, by decide, _, 0, [1#64], ⟨rfl, by decide, by decide⟩, rfl, by decide⟩, by decide⟩
  · rintro l b ⟨h1, h2, _⟩
    obtain ⟨i, hi, e1, y, hy, e2⟩ := (ht.keys 1 (by decide) _).1 ⟨l, h1, b, h2, rfl⟩
    rcases corner_cells hy with ⟨rfl, rfl⟩ | ⟨rfl, rfl⟩
    · exact absurd e1 (by decide)
    · exact absurd e1 (by decide)

/-- A target with one level of blocks of 2: of the active cell of 4 only the first half gets a block. -/
theorem restructure_drops_violated (code : Coord → Nat) :
    probeValue cornerGrid true 0 [6] = some (true, 24)
      ∧ (∃ g', restructure natTopo code cornerGrid ⟨[1], [1]⟩ someTables (.ok g'))
      ∧ ∀ g', restructure natTopo code cornerGrid ⟨[1], [1]⟩ someTables (.ok g') → ∀ ordered, probeValue g' ordered 0 [6] = some (false, 99) := by
  have hv : Layout.Valid ⟨[1], [1]⟩ cornerGrid.dim := ⟨by decide, rfl, by decide, by decide, by decide, by decide⟩
  obtain ⟨⟨o, ho⟩, h2⟩ := few_runs code corner_source gap_ready.pow hv (someTables_ok _) (corner_few _ (by decide +kernel))
  obtain ⟨g', rfl, _⟩ := h2 o ho
  refine ⟨corner_values.2.2.2, ⟨g', ho⟩, fun g' h ordered => ?_⟩
  obtain ⟨_, e, d1, ht, hc⟩ := h2 _ h
  cases e
  rw [hc.none ordered 0 [6] (by rw [ht.dim]; rfl) ?_, ht.background]
  · rfl
  · intro j hj hcov
    rw [ht.lay] at hj
    match j, hj with
    | 0, _ =>
      obtain ⟨i, hi, e1, y, hy, e2⟩ := (ht.covered hv (by decide)).1 hcov
      rcases corner_cells hy with ⟨rfl, rfl⟩ | ⟨rfl, rfl⟩
      · exact absurd e2 (by decide)
      · exact absurd e2 (by decide)

end Verif.Grid
