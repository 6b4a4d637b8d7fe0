import Verif.Proof.GridAccess

/-!
Accessors of adaptive grids (C66): `AdaptiveGridAccessor::probeValue` remembers the blocks that it passes and starts the next look-up at the
finest remembered one; the results are those of `probeValue` without accessor.
-/
namespace Verif.Grid

variable {V : Type} {g : Grid V}

/-- Whatever the grid holds, also if the levels contradict each other: a new accessor with any number of records up to the number of levels
answers every sequence of requests as `probeValue` does, with the same undefined behaviour, if any. -/
theorem accessor_transparent (hv : g.lay.Valid g.dim) (hd : 0 < g.dim) {depths : Nat} (hn : depths ≤ g.lay.levels)
    (qs : List (Nat × Coord)) (hq : ∀ q ∈ qs, q.2.length = g.dim) :
    accRun g (emptyCache g.dim depths) qs = qs.mapM fun q => probeValue g true q.1 q.2 :=
  accRun_spec hv hd qs _ (emptyCache_ok hn) hq

/-- A request whose block is remembered does not touch the hash tables: the answer stays the same if they are exchanged. -/
theorem accessor_hit (g g' : Grid V) (hl : g'.lay = g.lay)
    (hs : ∀ i : Nat, g'.levels[i]?.map (fun l => (l.tiles, l.valueMask, l.childMask, l.childOffset))
      = g.levels[i]?.map (fun l => (l.tiles, l.valueMask, l.childMask, l.childOffset)))
    (chn : Nat) (c : Coord) (cache : Cache) (d : Nat) (hh : isHashed g cache d c = true) :
    accProbe g' chn c cache d = accProbe g chn c cache d := by
  have ht : g'.top = g.top := by rw [Grid.top, Grid.top, hl]
  have hh' : isHashed g' cache d c = true := by
    rw [isHashed, ht, hl]; exact hh
  have hd : ∀ i b cache, descend g' chn c i b cache = descend g chn c i b cache := by
    intro i
    induction i with
    | zero =>
      intro b cache
      have h := hs 0
      simp only [descend, hl, remember, ht]
      cases h1 : g'.levels[0]? with
      | none => cases h2 : g.levels[0]? with
        | none => rfl
        | some l => rw [h1, h2] at h; cases h
      | some l' => cases h2 : g.levels[0]? with
        | none => rw [h1, h2] at h; cases h
        | some l =>
          rw [h1, h2] at h
          simp only [Option.map_some, Option.some.injEq, Prod.mk.injEq] at h
          obtain ⟨e1, e2, e3, e4⟩ := h
          simp only [Option.bind_some, Level.value, e1, e2]
    | succ i ih =>
      intro b cache
      have h := hs (i + 1)
      simp only [descend, hl, remember, ht, ih]
      cases h1 : g'.levels[i + 1]? with
      | none => cases h2 : g.levels[i + 1]? with
        | none => rfl
        | some l => rw [h1, h2] at h; cases h
      | some l' => cases h2 : g.levels[i + 1]? with
        | none => rw [h1, h2] at h; cases h
        | some l =>
          rw [h1, h2] at h
          simp only [Option.map_some, Option.some.injEq, Prod.mk.injEq] at h
          obtain ⟨e1, e2, e3, e4⟩ := h
          simp only [Option.bind_some, Level.value, Level.hasChild, Level.childNo, e1, e2, e3, e4]
  cases d with
  | zero => rw [accProbe, accProbe, if_pos hh, if_pos hh', ht]; simp only [hd]
  | succ d => rw [accProbe, accProbe, if_pos hh, if_pos hh', ht]; simp only [hd]

/-! ## A grid -/

/-- A table with one bucket of four slots that holds the given keys. -/
def smallTable (ks : List Coord) : Bht.Cfg Coord × Bht.St Coord :=
  let c : Bht.Cfg Coord := { B := 4, nb := 1, hf := fun _ _ => 0, hole := [0x3f3f3f3f], width := 64 }
  (c, { keys := fun i => ks.getD i c.hole, indices := fun i => i, active := fun i => ks.getD i c.hole, cnt := ks.length, success := true,
        pc := fun _ => .start })

/-- Two levels in one dimension: blocks of 2 and of 4 cells; block 0 of the coarse level has a child in its first half, block 1 one in its
second half. -/
def smallGrid : Grid Nat where
  lay := ⟨[1, 1], [1, 1]⟩
  dim := 1
  background := 99
  levels := [
    { cfg := (smallTable [[0], [6]]).1, tab := (smallTable [[0], [6]]).2, tiles := [[[10, 11]], [[16, 17]]],
      valueMask := ⟨[[3#64], [1#64]], 2⟩, childMask := ⟨[[0#64], [0#64]], 2⟩, childOffset := [] },
    { cfg := (smallTable [[0], [4]]).1, tab := (smallTable [[0], [4]]).2, tiles := [[[20, 22]], [[24, 26]]],
      valueMask := ⟨[[2#64], [0#64]], 2⟩, childMask := ⟨[[1#64], [2#64]], 2⟩, childOffset := [0, 1] }]

example : smallGrid.lay.Valid smallGrid.dim := ⟨by decide, rfl, by decide, by decide, by decide, by decide⟩

/-- Cells below a child, active and inactive tiles, and a coordinate without block. -/
example : ([0, 1, 2, 4, 6, 7, 8, -1].map fun x : BitVec 32 => probeValue smallGrid true 0 [x])
    = [some (true, 10), some (true, 11), some (true, 22), some (false, 24), some (true, 16), some (false, 17), some (false, 99),
      some (false, 99)] := by decide +kernel

/-- An accessor with two records, hitting the leaf record, the root record, and none. -/
example : accRun smallGrid (emptyCache 1 2) [(0, [6]), (0, [7]), (0, [4]), (0, [8]), (0, [1])]
    = some [(true, 16), (false, 17), (false, 24), (false, 99), (true, 11)] := by decide +kernel

end Verif.Grid
