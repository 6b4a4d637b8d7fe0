import Verif.Proof.GridThrow
import Verif.Props.GridAccess

/-!
`AdaptiveGrid::reorder` (C67): it changes neither values nor active flags, afterwards the traversal along offsets agrees with the one through
the hash tables; it can be repeated only if no mask vector has spare capacity.
-/
namespace Verif.Grid

variable {V : Type} {g : Grid V}

theorem top_lt (h : g.lay.Valid g.dim) : g.top < g.lay.levels := by
  have := h.some
  rw [Grid.top]; omega

/-- What is left after `reorder`: the same values. -/
structure Kept (g g' : Grid V) : Prop where
  consistent : Consistent g'
  ordered : Ordered g'
  lay : g'.lay = g.lay
  dim : g'.dim = g.dim
  same : ∀ chn c, c.length = g.dim → probeValue g' false chn c = probeValue g false chn c
  along : ∀ chn c, c.length = g.dim → probeValue g' true chn c = probeValue g false chn c

theorem reorder_good (code : Coord → Nat) (hc : Consistent g) (hx : ∀ l ∈ g.levels, l.Exact) :
    Good (reorder code g) fun g' => Kept g g' ∧ Rearranged g g'
      ∧ ∀ l ∈ g'.levels, l.valueMask.data.length = l.valueMask.cap ∧ l.childMask.data.length = l.childMask.cap := by
  have ht := top_lt hc.valid
  obtain ⟨l, hl⟩ := hc.get ht
  refine Good.bind (P := fun x => x = l) (Good.ofOption ⟨l, hl, rfl⟩) fun x e => ?_
  subst x
  refine Good.bind (Good.pick (sorted_exists code l)) fun p hp => ?_
  obtain ⟨π, σ, hb, rfl⟩ := bij_of_perm hp.1
  refine Good.bind (level_reorder (hc.level _ _ hl) hc.valid hc.dim ht (hx l (List.mem_of_getElem? hl)) hb false) fun l1 h1 => ?_
  obtain ⟨hperm, hL1⟩ := h1
  have hc1 := hc.set hl hperm.shuffled hL1
  refine (below_spec g.top (g.setLevel g.top l1) ht hc1 ?_).mono ?_
  · intro j hj a ha
    rw [getElem?_setLevel_ne (by omega)] at ha
    exact hx a (List.mem_of_getElem? ha)
  · intro g' ⟨k1, k2, k3, k4, k5, k6⟩
    have hr : Rearranged g g' := (rearranged_set hl hperm.shuffled).trans k2
    have ho : ∀ i, i + 1 < g'.lay.levels → OrderedAt g' i := by
      intro i hi
      rw [hr.lay] at hi
      exact k3 i (by rw [Grid.top]; omega)
    have hs := fun chn c (hcl : c.length = g.dim) => probe_rearranged hr hc k1 chn c hcl g.top ht
    have htop : g'.top = g.top := by rw [Grid.top, Grid.top, hr.lay]
    refine ⟨⟨k1, ?_, hr.lay, hr.dim, ?_, ?_⟩, hr, ?_⟩
    · intro i l lc hl' hlc'
      have : i + 1 < g'.levels.length := (List.getElem?_eq_some_iff.1 hl').1
      exact ho i (by rw [← k1.count]; exact this) l lc hl' hlc'
    · intro chn c hcl
      rw [probeValue, probeValue, htop]; exact hs chn c hcl
    · intro chn c hcl
      rw [probeValue, probeValue, htop, ← hs chn c hcl]
      exact probe_ordered k1 ho chn c (by rw [hr.dim]; exact hcl) g.top (by rw [hr.lay]; exact ht)
    · intro a ha
      obtain ⟨j, hj, e⟩ := List.getElem_of_mem ha
      have hja : g'.levels[j]? = some a := by rw [List.getElem?_eq_getElem hj, e]
      rcases Nat.lt_or_ge j g.top with h | h
      · exact k6 j h a hja
      · have hjt : j = g.top := by
          rw [k1.count, hr.lay] at hj
          rw [Grid.top] at h ⊢; omega
        subst hjt
        obtain ⟨offs, rfl⟩ := k5 _ _ (getElem?_setLevel_same hl) hja
        exact ⟨by rw [show l1.valueMask.data.length = _ from hperm.caps.2.2.1, hperm.caps.1],
          by rw [show l1.childMask.data.length = _ from hperm.caps.2.2.2, hperm.caps.2.1]⟩

/-- In a consistent grid with as many masks as blocks, `reorder` always succeeds without undefined behaviour; the result is consistent and
ordered, the traversal through the tables and the one along offsets both find for every coordinate what was found before. -/
theorem reorder_exact (code : Coord → Nat) (hc : Consistent g) (hx : ∀ l ∈ g.levels, l.Exact) :
    (∃ o, reorder code g o) ∧ ∀ o, reorder code g o → ∃ g', o = .ok g' ∧ Kept g g' := by
  obtain ⟨h1, h2⟩ := reorder_good code hc hx
  exact ⟨h1, fun o ho => let ⟨g', e, h⟩ := h2 o ho; ⟨g', e, h.1⟩⟩

/-- `valueOr` and `value` after `reorder`, which follow offsets, for coordinates whose look-up was well defined. -/
theorem reorder_values (code : Coord → Nat) (hc : Consistent g) (hx : ∀ l ∈ g.levels, l.Exact) {g' : Grid V} (h : reorder code g (.ok g'))
    (chn : Nat) (c : Coord) (hcl : c.length = g.dim) {on : Bool} {v : V} (hv : probeValue g false chn c = some (on, v)) (default : V) :
    valueOr g' chn c default = some (if on then v else default) ∧ value g' chn c = some v := by
  obtain ⟨_, e, hk⟩ := (reorder_exact code hc hx).2 _ h
  cases e
  rw [valueOr, value, hk.along chn c hcl, hv]
  exact ⟨rfl, rfl⟩

/-- Without spare capacity, the result can be reordered again, any number of times. -/
theorem reorder_again (code : Coord → Nat) (hc : Consistent g) (hx : ∀ l ∈ g.levels, l.Exact) (ht : ∀ l ∈ g.levels, l.Tight) {g' : Grid V}
    (h : reorder code g (.ok g')) : (∀ l ∈ g'.levels, l.Exact) ∧ ∀ l ∈ g'.levels, l.Tight := by
  obtain ⟨_, e, hk, hr, hcap⟩ := (reorder_good code hc hx).2 _ h
  cases e
  have key : ∀ l' ∈ g'.levels, l'.Tight := by
    intro l' hl'
    obtain ⟨j, hj, e⟩ := List.getElem_of_mem hl'
    have hj' : j < g.levels.length := by rw [← hr.count]; exact hj
    obtain ⟨_, h2, _, _, h5, h6, _⟩ := hr.level j _ _ (List.getElem?_eq_getElem hj') (List.getElem?_eq_getElem hj)
    have := ht _ (List.getElem_mem hj')
    rw [← e]
    exact ⟨by rw [h5, h2]; exact this.1, by rw [h6, h2]; exact this.2⟩
  refine ⟨fun l' hl' => ?_, key⟩
  exact ⟨by rw [(hcap l' hl').1]; exact (key l' hl').1, by rw [(hcap l' hl').2]; exact (key l' hl').2⟩

/-- `reorder` throws in a consistent grid in which some level has more masks than blocks. -/
theorem reorder_throws (code : Coord → Nat) (hc : Consistent g) {l : Level V} (hl : l ∈ g.levels) (hx : ¬ l.Exact) :
    (∃ o, reorder code g o) ∧ ∀ o, reorder code g o → o = .throw := by
  show Throws (reorder code g)
  have ht := top_lt hc.valid
  obtain ⟨lt, hlt⟩ := hc.get ht
  refine Good.throws (P := fun x => x = lt) (Good.ofOption ⟨lt, hlt, rfl⟩) fun x e => ?_
  subst x
  refine Good.throws (Good.pick (sorted_exists code lt)) fun p hp => ?_
  obtain ⟨π, σ, hb, rfl⟩ := bij_of_perm hp.1
  by_cases htx : lt.Exact
  · obtain ⟨j, hj, e⟩ := List.getElem_of_mem hl
    have hjl : g.levels[j]? = some l := by rw [List.getElem?_eq_getElem hj, e]
    have hjt : j ≠ g.top := by
      rintro rfl
      rw [hlt] at hjl; cases hjl
      exact hx htx
    refine Good.throws (level_reorder (hc.level _ _ hlt) hc.valid hc.dim ht htx hb false) fun l1 h1 => ?_
    refine below_throws g.top (g.setLevel g.top l1) ht (hc.set hlt h1.1.shuffled h1.2) ⟨j, ?_, l, ?_, hx⟩
    · rw [hc.count] at hj
      rw [Grid.top] at hjt ⊢; omega
    · rw [getElem?_setLevel_ne (Ne.symm hjt)]; exact hjl
  · exact Throws.bind (level_throws (hc.level _ _ hlt) hc.valid hc.dim ht htx hb false)

/-- In every grid with spare capacity in the masks of some level (as after `resizeTopo` has enlarged them by half), the first `reorder`
succeeds and the second one always throws: the first one leaves the masks with as many elements as the capacity. -/
theorem reorder_twice_violated (code code' : Coord → Nat) (hc : Consistent g) (hx : ∀ l ∈ g.levels, l.Exact)
    (hs : ∃ l ∈ g.levels, ¬ l.Tight) :
    ∃ g', reorder code g (.ok g') ∧ ∀ g', reorder code g (.ok g') →
      (∃ o, reorder code' g' o) ∧ ∀ o, reorder code' g' o → o = .throw := by
  obtain ⟨⟨o, ho⟩, hall⟩ := reorder_good code hc hx
  obtain ⟨g1, rfl, _⟩ := hall o ho
  refine ⟨g1, ho, fun g' h => ?_⟩
  obtain ⟨_, e, hk, hr, hcap⟩ := hall _ h
  cases e
  obtain ⟨l, hl, hnt⟩ := hs
  obtain ⟨j, hj, e⟩ := List.getElem_of_mem hl
  have hj' : j < g'.levels.length := by rw [hr.count]; exact hj
  obtain ⟨_, h2, _, _, h5, h6, _⟩ := hr.level j _ _ (List.getElem?_eq_getElem hj) (List.getElem?_eq_getElem hj')
  refine reorder_throws code' hk.consistent (List.getElem_mem hj') fun hx' => hnt ?_
  have := hcap _ (List.getElem_mem hj')
  rw [e] at h2 h5 h6
  exact ⟨by rw [← h5, ← this.1, hx'.1, h2], by rw [← h6, ← this.2, hx'.2, h2]⟩

/-! ## A grid -/

/-- Whether the link between two levels is as it should be needs checking for the children of each block only. -/
theorem link_of_blocks {lay : Layout} {dim i : Nat} {l lc : Level V} (hv : lay.Valid dim) (hi : i + 1 < lay.levels)
    (h1 : l.tab.cnt < l.childOffset.length)
    (h2 : ∀ (b : Nat) m, b < l.tab.cnt → l.childMask.data[b]? = some m → m.length = BitMask.wordCount ((2 ^ lay.hierBits (i + 1)) ^ dim))
    (h3 : ∀ (b : Nat) m, b < l.tab.cnt → l.childMask.data[b]? = some m → ∀ n, (2 ^ lay.hierBits (i + 1)) ^ dim ≤ n → BitMask.bit m n = false)
    (h4 : ∀ (b : Nat) m, b < l.tab.cnt → l.childMask.data[b]? = some m → ∀ n < (2 ^ lay.hierBits (i + 1)) ^ dim,
      (BitMask.bit m n = true ↔ ∃ b' < lc.tab.cnt, lc.tab.active b' = addCoord (l.tab.active b) (hierCoord lay (i + 1) dim (BitVec.ofNat 32 n))))
    (h5 : ∀ b < lc.tab.cnt, ∃ p < l.tab.cnt, l.tab.active p = coordToKey lay (i + 1) (lc.tab.active b)) : LinkOk lay dim i l lc := by
  refine ⟨h1, h2, h3, ?_, h5⟩
  intro c hc b m hb e hm
  have hlt := (hierOffset_spec hv hi c hc).2
  rw [h4 b m hb hm _ hlt]
  have := child_key hv hi c hc
  rw [e, BitVec.ofNat_toNat, BitVec.setWidth_eq, this]

/-- The grid of `Verif.Props.GridAccess` with the blocks of the finest level in the opposite order, and room for one more mask there. -/
def mixedGrid : Grid Nat where
  lay := ⟨[1, 1], [1, 1]⟩
  dim := 1
  background := 99
  levels := [
    { cfg := (smallTable [[6], [0]]).1, tab := (smallTable [[6], [0]]).2, tiles := [[[16, 17]], [[10, 11]]],
      valueMask := ⟨[[1#64], [3#64]], 3⟩, childMask := ⟨[[0#64], [0#64]], 2⟩, childOffset := [] },
    { cfg := (smallTable [[0], [4]]).1, tab := (smallTable [[0], [4]]).2, tiles := [[[20, 22]], [[24, 26]]],
      valueMask := ⟨[[2#64], [0#64]], 2⟩, childMask := ⟨[[1#64], [2#64]], 2⟩, childOffset := [7, 7, 7] }]

theorem smallTable_find (a b k : Coord) (hab : a ≠ b) (hk : k ≠ [0x3f3f3f3f]) (n : Nat) :
    Bht.query (smallTable [a, b]).1 (smallTable [a, b]).2 k = some n
      ↔ n < (smallTable [a, b]).2.cnt ∧ (smallTable [a, b]).2.active n = k := by
  have hk' : ([1061109567#32] : Coord) ≠ k := Ne.symm hk
  simp only [Bht.query, Bht.slotOf, smallTable, Bht.findIn, Bht.Cfg.offset]
  by_cases h1 : a = k
  · subst h1
    simp
    constructor
    · intro e; subst e; simp
    · rintro ⟨h, e⟩
      match n, h with
      | 0, _ => rfl
      | 1, _ => simp at e; exact absurd e.symm hab
  · by_cases h2 : b = k
    · subst h2
      simp [h1]
      constructor
      · intro e; subst e; simp
      · rintro ⟨h, e⟩
        match n, h with
        | 0, _ => simp at e; exact absurd e h1
        | 1, _ => rfl
    · simp [h1, h2, hk']
      intro h
      match n, h with
      | 0, _ => simpa using h1
      | 1, _ => simpa using h2

theorem mixed_consistent : Consistent mixedGrid := by
  have hv : mixedGrid.lay.Valid mixedGrid.dim := ⟨by decide, rfl, by decide, by decide, by decide, by decide⟩
  have two : ∀ {P : Nat → Prop}, P 0 → P 1 → ∀ b < 2, P b := by
    intro P h0 h1 b hb
    match b, hb with
    | 0, _ => exact h0
    | 1, _ => exact h1
  refine ⟨hv, by decide, rfl, ?_, ?_⟩
  · intro i l hl
    match i, hl with
    | 0, hl =>
      cases hl
      exact ⟨rfl, by decide, fun k b hk => smallTable_find _ _ k (by decide) hk b, two rfl rfl, two (by decide) (by decide),
        rfl, by decide, by decide, by decide, by decide⟩
    | 1, hl =>
      cases hl
      exact ⟨rfl, by decide, fun k b hk => smallTable_find _ _ k (by decide) hk b, two rfl rfl, two (by decide) (by decide),
        rfl, by decide, by decide, by decide, by decide⟩
  · intro i l lc hl hlc
    match i, hl, hlc with
    | 0, hl, hlc =>
      cases hl; cases hlc
      refine link_of_blocks hv (by decide) (by decide) ?_ ?_ ?_ (two ⟨1, by decide, by decide⟩ ⟨0, by decide, by decide⟩)
      · intro b m hb
        revert m; revert hb; revert b
        exact two (by rintro m ⟨⟩; rfl) (by rintro m ⟨⟩; rfl)
      · intro b m hb
        have clean : ∀ w : BitVec 64, w.toNat < 4 → ∀ n, 2 ≤ n → BitMask.bit [w] n = false := by
          intro w hw n hn
          by_cases h : n < 64
          · simp only [BitMask.bit, if_pos h, BitVec.getLsbD]
            apply Nat.testBit_lt_two_pow
            have : 2 ^ 2 ≤ 2 ^ n := Nat.pow_le_pow_right (by omega) hn
            omega
          · simp only [BitMask.bit, if_neg h]
        revert m; revert hb; revert b
        exact two (by rintro m ⟨⟩ n hn; exact clean _ (by decide) n hn) (by rintro m ⟨⟩ n hn; exact clean _ (by decide) n hn)
      · intro b m hb
        revert m; revert hb; revert b
        refine two ?_ ?_
        · rintro m ⟨⟩
          refine two ?_ ?_
          · exact ⟨fun _ => ⟨1, by decide, by decide⟩, fun _ => by decide⟩
          · exact ⟨fun h => absurd h (by decide), by decide⟩
        · rintro m ⟨⟩
          refine two ?_ ?_
          · exact ⟨fun h => absurd h (by decide), by decide⟩
          · exact ⟨fun _ => ⟨0, by decide, by decide⟩, fun _ => by decide⟩
    | i + 1, hl, _ => simp [mixedGrid] at hl

theorem mixed_exact : ∀ l ∈ mixedGrid.levels, l.Exact := by
  intro l hl
  simp only [mixedGrid, List.mem_cons, List.not_mem_nil, or_false] at hl
  rcases hl with rfl | rfl <;> exact ⟨rfl, rfl⟩

/-- Before `reorder` the offsets lead astray or beyond the blocks, the tables do not. -/
example : probeValue mixedGrid true 0 [6] = none ∧ probeValue mixedGrid false 0 [6] = some (true, 16)
    ∧ probeValue mixedGrid false 0 [0] = some (true, 10) := by decide +kernel

/-- After each run, the offsets lead to the same values. -/
example (g' : Grid Nat) (h : reorder (fun _ => 0) mixedGrid (.ok g')) : value g' 0 [6] = some 16 ∧ value g' 0 [0] = some 10 :=
  ⟨(reorder_values _ mixed_consistent mixed_exact h 0 [6] rfl (on := true) (by decide +kernel) 0).2,
    (reorder_values _ mixed_consistent mixed_exact h 0 [0] rfl (on := true) (by decide +kernel) 0).2⟩

/-- And the spare mask makes the second run throw. -/
example : ∃ g', reorder (fun _ => 0) mixedGrid (.ok g') ∧ ∀ g', reorder (fun _ => 0) mixedGrid (.ok g') →
    (∃ o, reorder (fun _ => 0) g' o) ∧ ∀ o, reorder (fun _ => 0) g' o → o = .throw :=
  reorder_twice_violated _ _ mixed_consistent mixed_exact ⟨_, List.mem_cons_self, fun h => absurd h.1 (by decide)⟩

end Verif.Grid
