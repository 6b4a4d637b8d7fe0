import Verif.Proof.GridComplement

/-!
`AdaptiveGrid::complementTopo` (C68): it creates the missing parents of all blocks and makes child masks and offsets right; consistent grids keep
all values; in other grids new blocks may hide active tiles.
-/
namespace Verif.Grid

variable {V : Type} {g g1 g' : Grid V} {p : Topo V}

/-- The insertion of parents has no undefined behaviour, throws nothing and always ends, whether or not insertions are refused: for all
schedules of the insertions and all contents of fresh memory. -/
theorem complement_up (hr : Ready p g) :
    (∃ o, complementUp p g g.top o) ∧ ∀ o, complementUp p g g.top o → ∃ g1, o = .ok g1 := by
  obtain ⟨h1, h2⟩ := complementUp_good hr g.top (top_lt hr.valid)
  exact ⟨h1, fun o ho => let ⟨g1, e, _⟩ := h2 o ho; ⟨g1, e⟩⟩

theorem run_good (code : Coord → Nat) (hr : Ready p g) (h : Up p g g.top g1) (hf : Fits g1) : Good (reorder code g1) (Completed p g) := by
  refine (reorder_good code (h.consistent hr hf) ?_).mono fun g' ⟨hk, hre, _⟩ => h.completed hr hf hk hre
  intro l hl
  obtain ⟨j, hj, e⟩ := List.getElem_of_mem hl
  exact (h.levelOk hr hf j l (by rw [List.getElem?_eq_getElem hj, e])).2

/-- If no insertion was refused, the grid that has got all parents is reordered without fail, and the result is complete. -/
theorem complement_run (code : Coord → Nat) (hr : Ready p g) (h : complementUp p g g.top (.ok g1)) (hf : Fits g1) :
    (∃ o, reorder code g1 o) ∧ ∀ o, reorder code g1 o → ∃ g', o = .ok g' ∧ Completed p g g' := by
  obtain ⟨_, e, hu⟩ := (complementUp_good hr g.top (top_lt hr.valid)).2 _ h
  cases e
  exact run_good code hr hu hf

/-- If no schedule leads to a refusal, `complementTopo` always succeeds, and the result is complete. -/
theorem complement_completes (code : Coord → Nat) (hr : Ready p g) (hf : ∀ g1, complementUp p g g.top (.ok g1) → Fits g1) :
    (∃ o, complementTopo p code g o) ∧ ∀ o, complementTopo p code g o → ∃ g', o = .ok g' ∧ Completed p g g' := by
  obtain ⟨h1, h2⟩ := complementUp_good hr g.top (top_lt hr.valid)
  have hg : Good (complementUp p g g.top) fun g1 => Up p g g.top g1 ∧ Fits g1 :=
    ⟨h1, fun o ho => let ⟨g1, e, hu⟩ := h2 o ho; ⟨g1, e, hu, hf g1 (e ▸ ho)⟩⟩
  exact Good.bind hg fun g1 ⟨hu, hf⟩ => run_good code hr hu hf

/-- With few blocks no insertion is ever refused. -/
theorem complement_few (code : Coord → Nat) (hr : Ready p g) (hf : Few p g) :
    (∃ o, complementTopo p code g o) ∧ ∀ o, complementTopo p code g o → ∃ g', o = .ok g' ∧ Completed p g g' := by
  refine complement_completes code hr fun g1 h => ?_
  obtain ⟨_, e, hu⟩ := (complementUp_good hr g.top (top_lt hr.valid)).2 _ h
  cases e
  exact hf.fits hr hu

/-- A consistent grid keeps all its values and active flags, and gets no new blocks. -/
theorem complement_same (hc : Consistent g) (h : Completed p g g') :
    (∀ ordered chn (c : Coord), c.length = g.dim → probeValue g' ordered chn c = probeValue g false chn c)
    ∧ ∀ j < g.lay.levels, ∀ c : Coord, c.length = g.dim → ((∃ l b, BlockAt g' j c l b) ↔ ∃ l b, BlockAt g j c l b) := by
  refine ⟨fun ordered chn c hcl => ?_, fun j hj c hcl => (h.blocks j hj c hcl).trans (hc.covered hj)⟩
  have ht := top_lt hc.valid
  have hle : ∀ j, j < g.lay.levels ↔ j ≤ g.top := by intro j; rw [Grid.top] at ht ⊢; omega
  obtain ⟨p1, p2⟩ := probe_finest hc chn hcl g.top ht
  show _ = probe g false chn c g.top none
  by_cases hn : ∀ j < g.lay.levels, ¬ Covered g j c
  · rw [h.none ordered chn c hcl hn, p1]
    intro j hj l b hb
    exact hn j ((hle j).2 hj) ((hc.covered ((hle j).2 hj)).2 ⟨l, b, hb⟩)
  · have : ∃ j, j < g.lay.levels ∧ Covered g j c := Classical.byContradiction fun hx => hn fun j hj hcov => hx ⟨j, hj, hcov⟩
    obtain ⟨j, hj, hcov, hmin⟩ : ∃ j, j < g.lay.levels ∧ Covered g j c ∧ ∀ i < j, ¬ Covered g i c := by
      obtain ⟨j, hj, hcov⟩ := this
      induction j using Nat.strongRecOn with
      | ind j ih =>
        by_cases h : ∃ i < j, Covered g i c
        · obtain ⟨i, hi, hx⟩ := h
          exact ih i hi (by omega) hx
        · exact ⟨j, hj, hcov, fun i hi hx => h ⟨i, hi, hx⟩⟩
    obtain ⟨l, b, hb⟩ := (hc.covered hj).1 hcov
    rw [h.kept ordered chn c hcl _ hj hmin l b hb, p2 _ ((hle _).1 hj) ?_ l b hb]
    intro k hk l' b' hb'
    exact hmin k hk ((hc.covered (by omega)).2 ⟨l', b', hb'⟩)

/-! ## Grids -/

/-- A table with one bucket of 16 slots, as `AdaptiveGrid` uses them, with the given keys. -/
def blockTable (ks : List Coord) : Bht.Cfg Coord × Bht.St Coord :=
  let c : Bht.Cfg Coord := { B := 16, nb := 1, hf := fun _ _ => 0, hole := [0x3f3f3f3f#32], width := 64 }
  (c, { keys := fun i => ks.getD i c.hole, indices := fun i => i, active := fun i => ks.getD i c.hole, cnt := ks.length, success := true,
        pc := fun _ => .start })

theorem blockTable_sound (ks : List Coord) (hn : ks.Nodup) (hh : [0x3f3f3f3f#32] ∉ ks) (hl : ks.length ≤ 14) :
    Bht.Sound (blockTable ks).1 (blockTable ks).2 := by
  have get : ∀ i (h : i < ks.length), ks.getD i [0x3f3f3f3f#32] = ks[i] := by intro i h; simp [List.getD, h]
  have ne : ∀ i (h : i < ks.length), ks[i] ≠ [0x3f3f3f3f#32] := fun i h e => hh (e ▸ List.getElem_mem h)
  have lt : ∀ a, ks.getD a [0x3f3f3f3f#32] ≠ [0x3f3f3f3f#32] → a < ks.length := by
    intro a h
    rcases Nat.lt_or_ge a ks.length with h' | h'
    · exact h'
    · exact absurd (by simp [List.getD, h']) h
  refine ⟨fun a ha => ⟨Nat.one_ne_zero, 0, a, by decide, ?_, ?_, ?_⟩, fun a ha => ⟨lt a ha, rfl⟩, fun i hi => ⟨?_, i, rfl, rfl⟩⟩
  · have := lt a ha
    show a ≤ 14
    omega
  · simp [blockTable, Bht.Cfg.offset]
  · intro i' l' h
    have ha := lt a ha
    obtain ⟨rfl, h⟩ : i' = 0 ∧ l' < a := by omega
    have hl' : l' < ks.length := by omega
    have e : (blockTable ks).1.offset 0 ((blockTable ks).2.keys a) + l' = l' := by simp [blockTable, Bht.Cfg.offset]
    rw [e]
    refine ⟨?_, ?_⟩
    · show ks.getD l' _ ≠ _
      rw [get l' hl']; exact ne l' hl'
    · show ks.getD l' [0x3f3f3f3f#32] ≠ ks.getD a [0x3f3f3f3f#32]
      rw [get l' hl', get a ha]
      intro e
      have := (List.Nodup.getElem_inj_iff hn).1 e
      omega
  · show ks.getD i [0x3f3f3f3f#32] ≠ _
    rw [get i hi]; exact ne i hi

def pow2 (n : Nat) : Nat := if n ≤ 1 then 1 else if n ≤ 2 then 2 else if n ≤ 4 then 4 else if n ≤ 8 then 8 else if n ≤ 16 then 16 else n

/-- Three levels in one dimension, blocks of 2, 4 and 8 cells: a block of the finest level, one of the coarsest level with active tiles, and none
between them. -/
def gapGrid : Grid Nat where
  lay := ⟨[1, 1, 1], [1, 1, 1]⟩
  dim := 1
  background := 99
  levels := [
    { cfg := (blockTable [[0]]).1, tab := (blockTable [[0]]).2, tiles := [[[10, 11]]],
      valueMask := ⟨[[3#64]], 1⟩, childMask := ⟨[[0#64]], 1⟩, childOffset := [] },
    { cfg := (blockTable []).1, tab := (blockTable []).2, tiles := [], valueMask := ⟨[], 0⟩, childMask := ⟨[], 0⟩, childOffset := [] },
    { cfg := (blockTable [[0], [16]]).1, tab := (blockTable [[0], [16]]).2, tiles := [[[20, 24]], [[30, 34]]],
      valueMask := ⟨[[3#64], [3#64]], 2⟩, childMask := ⟨[[0#64], [0#64]], 2⟩, childOffset := [0, 0, 0] }]

def natTopo : Topo Nat := ⟨pow2, 1, 0⟩

theorem gap_ready : Ready natTopo gapGrid := by
  refine ⟨⟨by decide, rfl, by decide, by decide, by decide, by decide⟩, by decide, rfl, ?_, ?_, ?_⟩
  · intro n
    show n ≤ pow2 n
    unfold pow2
    repeat' split
    all_goals omega
  · intro i l hl
    match i, hl with
    | 0, hl =>
      cases hl
      refine ⟨by decide, rfl, blockTable_sound _ (by decide) (by decide) (by decide), by decide, by decide, by decide, rfl, by decide, by decide,
        by decide, by decide, ?_⟩
      intro b m hb hm
      match b, hb with
      | 0, _ => cases hm; decide
    | 1, hl =>
      cases hl
      exact ⟨by decide, rfl, blockTable_sound _ (by decide) (by decide) (by decide), by decide, by decide, by decide, rfl, by decide, by decide,
        by decide, by decide, fun b m hb => absurd hb (Nat.not_lt_zero b)⟩
    | 2, hl =>
      cases hl
      refine ⟨by decide, rfl, blockTable_sound _ (by decide) (by decide) (by decide), by decide, by decide, by decide, rfl, by decide, by decide,
        by decide, by decide, ?_⟩
      intro b m hb hm
      match b, hb with
      | 0, _ => cases hm; decide
      | 1, _ => cases hm; decide
  · rintro l ⟨⟩
    exact ⟨rfl, rfl⟩

theorem gap_few : Few natTopo gapGrid := by
  have all : ∀ {P : Level Nat → Prop} {a b c}, gapGrid.levels = [a, b, c] → P a → P b → P c → ∀ l ∈ gapGrid.levels, P l := by
    intro P a b c e ha hb hc l hl
    rw [e] at hl
    simp only [List.mem_cons, List.not_mem_nil, or_false] at hl
    rcases hl with rfl | rfl | rfl <;> assumption
  refine ⟨all rfl rfl rfl rfl, all rfl (by decide) (by decide) (by decide), all rfl (by decide) (by decide) (by decide), all rfl rfl rfl rfl,
    by decide, ?_⟩
  intro n h0 h
  show ∃ j ≤ 4, pow2 n = 2 ^ j
  unfold pow2
  repeat' split
  · exact ⟨0, by omega, rfl⟩
  · exact ⟨1, by omega, rfl⟩
  · exact ⟨2, by omega, rfl⟩
  · exact ⟨3, by omega, rfl⟩
  · exact ⟨4, by omega, rfl⟩
  · omega

/-- Before the call, coordinate 2 lies in an active tile with the value 20; after every run of `complementTopo` it is inactive and zero: the new
block between the coarsest and the finest level hides the tile. Coordinate 0 gets the value of its finest block, coordinate 16 keeps its own. -/
theorem complement_hides_violated (code : Coord → Nat) :
    probeValue gapGrid false 0 [2] = some (true, 20) ∧ (∃ g', complementTopo natTopo code gapGrid (.ok g'))
      ∧ ∀ g', complementTopo natTopo code gapGrid (.ok g') → ∀ ordered, probeValue g' ordered 0 [2] = some (false, 0)
        ∧ probeValue g' ordered 0 [0] = some (true, 10) ∧ probeValue g' ordered 0 [16] = some (true, 30) := by
  obtain ⟨⟨o, ho⟩, h2⟩ := complement_few code gap_ready gap_few
  obtain ⟨g', rfl, _⟩ := h2 o ho
  refine ⟨by decide +kernel, ⟨g', ho⟩, fun g' h ordered => ?_⟩
  obtain ⟨_, e, hc⟩ := h2 _ h
  cases e
  have empty : ∀ (c : Coord) l b, ¬ BlockAt gapGrid 1 c l b := by
    rintro c l b ⟨⟨⟩, h, _⟩
    exact absurd h (Nat.not_lt_zero b)
  have no0 : ∀ c : Coord, coordToKey gapGrid.lay 0 c ≠ [0] → ¬ Covered gapGrid 0 c := by
    rintro c hn ⟨i, hi, l, hl, b, hb, e⟩
    match i, hi with
    | 0, _ =>
      cases hl
      match b, hb with
      | 0, _ => exact hn (e.symm.trans (by decide))
  have no1 : ∀ c : Coord, coordToKey gapGrid.lay 1 c ≠ [0] → ¬ Covered gapGrid 1 c := by
    rintro c hn ⟨i, hi, l, hl, b, hb, e⟩
    match i, hi with
    | 0, _ =>
      cases hl
      match b, hb with
      | 0, _ => exact hn (e.symm.trans (by decide))
    | 1, _ =>
      cases hl
      exact absurd hb (Nat.not_lt_zero b)
  refine ⟨?_, ?_, ?_⟩
  · refine hc.made ordered 0 [2] rfl (by decide) 1 (by decide) ?_ ⟨0, by decide, _, rfl, 0, by decide, by decide⟩ (empty _)
    intro i hi
    match i, hi with
    | 0, _ => exact no0 _ (by decide)
  · rw [hc.kept ordered 0 [0] rfl 0 (by decide) (fun i hi => absurd hi (Nat.not_lt_zero i)) _ 0 ⟨rfl, by decide, by decide⟩]
    decide +kernel
  · rw [hc.kept ordered 0 [16] rfl 2 (by decide) ?_ _ 1 ⟨rfl, by decide, by decide⟩]
    · decide +kernel
    · intro i hi
      match i, hi with
      | 0, _ => exact no0 _ (by decide)
      | 1, _ => exact no1 _ (by decide)

/-- Two levels: a block with one child. -/
def fullGrid : Grid Nat where
  lay := ⟨[1, 1], [1, 1]⟩
  dim := 1
  background := 99
  levels := [
    { cfg := (blockTable [[6]]).1, tab := (blockTable [[6]]).2, tiles := [[[10, 11]]],
      valueMask := ⟨[[1#64]], 1⟩, childMask := ⟨[[0#64]], 1⟩, childOffset := [] },
    { cfg := (blockTable [[4]]).1, tab := (blockTable [[4]]).2, tiles := [[[20, 22]]],
      valueMask := ⟨[[3#64]], 1⟩, childMask := ⟨[[2#64]], 1⟩, childOffset := [0, 1] }]

theorem full_ready : Ready natTopo fullGrid := by
  refine ⟨⟨by decide, rfl, by decide, by decide, by decide, by decide⟩, by decide, rfl, gap_ready.pow, ?_, ?_⟩
  · intro i l hl
    match i, hl with
    | 0, hl | 1, hl =>
      cases hl
      refine ⟨by decide, rfl, blockTable_sound _ (by decide) (by decide) (by decide), by decide, by decide, by decide, rfl, by decide, by decide,
        by decide, by decide, ?_⟩
      intro b m hb hm
      match b, hb with
      | 0, _ => cases hm; decide
  · rintro l ⟨⟩
    exact ⟨rfl, rfl⟩

theorem full_consistent : Consistent fullGrid := by
  refine ⟨full_ready.valid, full_ready.dim, rfl, fun i l hl => (full_ready.level i l hl).ok, ?_⟩
  intro i l lc hl hlc
  match i, hl, hlc with
  | 0, hl, hlc =>
    cases hl; cases hlc
    refine link_of_blocks full_ready.valid (by decide) (by decide) ?_ ?_ ?_ ?_
    · intro b m hb hm
      match b, hb with
      | 0, _ => cases hm; decide
    · intro b m hb hm n hn
      match b, hb with
      | 0, _ =>
        cases hm
        by_cases h : n < 64
        · exact (show ∀ n < 64, 2 ≤ n → BitMask.bit [2#64] n = false by decide) n h hn
        · simp only [BitMask.bit, if_neg h]
    · intro b m hb hm n hn
      match b, hb with
      | 0, _ =>
        cases hm
        match n, hn with
        | 0, _ => exact ⟨fun h => absurd h (by decide), by decide⟩
        | 1, _ => exact ⟨fun _ => ⟨0, by decide, by decide⟩, fun _ => by decide⟩
    · intro b hb
      match b, hb with
      | 0, _ => exact ⟨0, by decide, by decide⟩

theorem full_few : Few natTopo fullGrid := by
  have all : ∀ {P : Level Nat → Prop} {a b}, fullGrid.levels = [a, b] → P a → P b → ∀ l ∈ fullGrid.levels, P l := by
    intro P a b e ha hb l hl
    rw [e] at hl
    simp only [List.mem_cons, List.not_mem_nil, or_false] at hl
    rcases hl with rfl | rfl <;> assumption
  exact ⟨all rfl rfl rfl, all rfl (by decide) (by decide), all rfl (by decide) (by decide), all rfl rfl rfl, by decide, gap_few.pow⟩

/-- A consistent grid keeps its values: below the child, in an active tile, and without a block. -/
example (code : Coord → Nat) : ∃ g', complementTopo natTopo code fullGrid (.ok g') ∧ probeValue g' true 0 [6] = some (true, 10)
    ∧ probeValue g' true 0 [5] = some (true, 20) ∧ probeValue g' true 0 [8] = some (false, 99) := by
  obtain ⟨⟨o, ho⟩, h2⟩ := complement_few code full_ready full_few
  obtain ⟨g', rfl, hc⟩ := h2 o ho
  have h := (complement_same full_consistent hc).1 true 0
  exact ⟨g', ho, (h [6] rfl).trans (by decide +kernel), (h [5] rfl).trans (by decide +kernel), (h [8] rfl).trans (by decide +kernel)⟩

end Verif.Grid
