import Verif.Proof.PoissonFinal

/-!
Dense grids and Poisson disk sampling in the plane.

Everything is for all random numbers.  `fullSize` is the allocation the grid needs; the theorems named `_violated` are about the allocation of the code, about the message that reads cell
`(2, 3)`, and about boxes for which periodic mode does not keep the distance.
-/
namespace Verif.Poisson

/-! ### `DenseGrid` -/

/-- Different indices within the dimensions have different offsets, from zero to the product of the dimensions, in any number of dimensions. -/
theorem offset_inj (size : List ℤ → ℤ) {dims : List ℤ} (v : ℤ) {i j : List ℤ} (hi : InRange i dims) (hj : InRange j dims) :
    0 ≤ (Grid.make size dims v).offset i ∧ (Grid.make size dims v).offset i < dims.prod ∧ ((Grid.make size dims v).offset i = (Grid.make size dims v).offset j ↔ i = j) := by
  rw [offset_eq rfl, offset_eq rfl]
  exact ⟨(off_range hi).1, (off_range hi).2, fun h => off_inj hi hj h, fun h => by rw [h]⟩

example : InRange [1, 2, 3] [2, 3, 4] ∧ (Grid.make fullSize [2, 3, 4] 0).offset [1, 2, 3] = 23 := by
  refine ⟨by simp [InRange], by decide⟩

/-- With a cell for every index, a cell is read as it was written last, and initially as the value given. -/
theorem store {dims : List ℤ} (v : ℤ) {i : List ℤ} (hi : InRange i dims) (g : Grid) (hg : g.weights = exclSuffixProd dims ∧ g.dims = dims ∧ (g.cells.length : ℤ) = dims.prod) (w : ℤ) :
    (Grid.make fullSize dims v).read i = some v ∧
    ∃ g', g.write i w = some g' ∧ g'.weights = exclSuffixProd dims ∧ g'.dims = dims ∧ (g'.cells.length : ℤ) = dims.prod ∧ g'.read i = some w ∧
      ∀ j, InRange j dims → j ≠ i → g'.read j = g.read j := by
  obtain ⟨h1, h2, h3⟩ := hg
  subst h2
  obtain ⟨g', a, b, d, e, f⟩ := write_some (⟨h1, h3⟩ : g.OK) hi w
  exact ⟨make_read hi v, g', a, d ▸ b.weights, d, d ▸ b.size, e, f⟩

/-- The grid of the code has a cell for every index exactly if the product of the weights reaches the product of the dimensions. -/
theorem storage_iff {dims : List ℤ} (hd : ∀ n ∈ dims, 0 < n) (v : ℤ) :
    (∀ i, InRange i dims → (Grid.make codeSize dims v).read i = some v) ↔ dims.prod ≤ codeSize dims := by
  constructor
  · intro H
    by_contra hlt
    obtain ⟨h1, h2⟩ := off_last hd
    have := H _ h1
    rw [read_make_none (by omega)] at this
    cases this
  · intro h i hi
    have r := off_range hi
    rw [read_make, if_pos r.1, List.getElem?_replicate, if_pos (by omega)]

/-- In the plane only a grid of one row has enough cells: the code allocates one row. -/
theorem storage_violated {n m : ℤ} (hn : 2 ≤ n) (hm : 0 < m) (v w : ℤ) :
    InRange [n - 1, m - 1] [n, m] ∧ (Grid.make codeSize [n, m] v).read [n - 1, m - 1] = none ∧ (Grid.make codeSize [n, m] v).write [n - 1, m - 1] w = none := by
  have h : codeSize [n, m] ≤ off [n, m] [n - 1, m - 1] := by
    rw [codeSize2, off2]; nlinarith
  exact ⟨inRange2.2 ⟨⟨by omega, by omega⟩, by omega, by omega⟩, read_make_none h, write_make_none h⟩

/-! ### `PoissonDisk::sample` -/

/-- A candidate is between one and two distances away from the sample, for the vectors that end the loop. -/
theorem around_ring (c : Cfg) (v center : P) (h : 0.25 ≤ nsq v ∧ nsq v ≤ 1) :
    c.minDistance ^ 2 ≤ nsq ((aroundPoint c v center).1 - center.1, (aroundPoint c v center).2 - center.2) ∧
    nsq ((aroundPoint c v center).1 - center.1, (aroundPoint c v center).2 - center.2) ≤ (2 * c.minDistance) ^ 2 := by
  have e : nsq ((aroundPoint c v center).1 - center.1, (aroundPoint c v center).2 - center.2) = 4 * c.minDistance ^ 2 * nsq v := by
    simp only [nsq, aroundPoint]; ring
  rw [e]
  have := sq_nonneg c.minDistance
  constructor <;> nlinarith [h.1, h.2]

example (c : Cfg) : (0.25 : ℝ) ≤ nsq (0.5, 0.5) ∧ nsq (0.5, 0.5) ≤ 1 := by constructor <;> norm_num [nsq]

/-- In periodic mode a candidate around a sample is moved by whole periods into the box. -/
theorem bring_inside {c : Cfg} (G : Good c) (hper : c.periodic = true) {s x : P} (hs : InGrid c s) (hx : nsq (x.1 - s.1, x.2 - s.2) ≤ (2 * c.minDistance) ^ 2) :
    (∃ k m : ℤ, bring c x = (x.1 + k * (c.hi.1 - c.lo.1), x.2 + m * (c.hi.2 - c.lo.2))) ∧
      (c.lo.1 ≤ (bring c x).1 ∧ (bring c x).1 ≤ c.hi.1) ∧ c.lo.2 ≤ (bring c x).2 ∧ (bring c x).2 ≤ c.hi.2 := by
  have hb := inGrid_inBox G hper hs
  obtain ⟨d1, d2⟩ := two_dist G hper hx
  obtain ⟨k, k1, k2⟩ := shift_one hb.1.1 hb.1.2 d1
  obtain ⟨m, m1, m2⟩ := shift_one hb.2.1 hb.2.2 d2
  have e : bring c x = (shiftIn x.1 c.lo.1 c.hi.1, shiftIn x.2 c.lo.2 c.hi.2) := by rw [bring, if_pos hper]
  rw [e]
  exact ⟨⟨k, m, by rw [k1, m1]⟩, k2, m2⟩

/-- With the grid of the code and the message, no call in the plane has defined behaviour. -/
theorem sample_violated (c : Cfg) (h : 0 < c.minDistance) (hb : c.lo.1 < c.hi.1 ∧ c.lo.2 < c.hi.2) (first : P) (pick : ℕ → ℕ → ℕ) (around : ℕ → ℕ → P → P) (fuel : ℕ) :
    sample c codeSize true first pick around fuel = none := by
  have hn := cellNumbers_pos h hb
  have : (Grid.make codeSize [(cellNumbers c).1, (cellNumbers c).2] (-1)).read [2, 3] = none := by
    apply read_make_none
    rw [codeSize2, off2]; omega
  simp only [sample, start, this, and_self, if_true]

/-- The same without the message, as soon as there are three rows: the first point, in the middle of the box, has no cell. -/
theorem sample_storage_violated (c : Cfg) (h : 0 < c.minDistance) (hb : c.lo.1 < c.hi.1 ∧ c.lo.2 < c.hi.2) (hn : 3 ≤ (cellNumbers c).1) (pick : ℕ → ℕ → ℕ) (around : ℕ → ℕ → P → P) (fuel : ℕ) :
    sample c codeSize false (middle c) pick around fuel = none := by
  have hp := cellNumbers_pos h hb
  have hr := middle_row h hn
  have hg := inBox_inGrid h (middle_inBox hb)
  have : (Grid.make codeSize [(cellNumbers c).1, (cellNumbers c).2] (-1)).write [(toIndex c (middle c) (side c)).1, (toIndex c (middle c) (side c)).2] 0 = none := by
    apply write_make_none
    rw [codeSize2, off2]
    have := hg.2.1
    nlinarith
  simp only [sample, start, Bool.false_eq_true, false_and, if_false, this]

/-- With a cell for every index the message still needs more than two rows. -/
theorem message_violated (c : Cfg) (h : 0 < c.minDistance) (hb : c.lo.1 < c.hi.1 ∧ c.lo.2 < c.hi.2) (hn : (cellNumbers c).1 ≤ 2) (first : P) (pick : ℕ → ℕ → ℕ) (around : ℕ → ℕ → P → P) (fuel : ℕ) :
    sample c fullSize true first pick around fuel = none := by
  have hp := cellNumbers_pos h hb
  have : (Grid.make fullSize [(cellNumbers c).1, (cellNumbers c).2] (-1)).read [2, 3] = none := by
    apply read_make_none
    rw [off2]
    simp only [fullSize, List.prod_cons, List.prod_nil]
    nlinarith
  simp only [sample, start, this, and_self, if_true]

/-- The first point is in the box, if it is the middle or made from random numbers below one. -/
theorem first_in_box (c : Cfg) (hb : c.lo.1 < c.hi.1 ∧ c.lo.2 < c.hi.2) :
    InBox c (middle c) ∧ ∀ r : P, 0 ≤ r.1 ∧ r.1 < 1 → 0 ≤ r.2 ∧ r.2 < 1 → InBox c (between c r) :=
  ⟨middle_inBox hb, fun _ h0 h1 => between_inBox hb h0 h1⟩

/-- With a cell for every index and without the message: no access is outside a vector, all samples are feasible, in the grid and, in the sense of the mode, pairwise at least the distance
apart; the first point is kept.  In periodic mode the box has to be a whole number of cells, at least three, wide. -/
theorem sample_partial {c : Cfg} (G : Good c) {first : P} (hb : InBox c first) (hf : c.feasible first = true) {pick : ℕ → ℕ → ℕ} (hp : ∀ f n, 0 < n → pick f n < n)
    (around : ℕ → ℕ → P → P) (fuel : ℕ) :
    ∃ st, sample c fullSize false first pick around fuel = some st ∧ st.samples.Pairwise c.Sep ∧ (∀ s ∈ st.samples, c.feasible s = true ∧ InGrid c s) ∧ st.samples.head? = some first := by
  obtain ⟨st, h1, I, h2, -⟩ := start_spec around G.dist G.box (inBox_inGrid G.dist hb) hf
  obtain ⟨st', ys, g1, g2, g3, -⟩ := rounds_spec G hp fuel I
  refine ⟨st', by simp only [sample, h1, g1], g2.sep, fun s hs => ⟨g2.feas s hs, ?_⟩, by rw [g3, h2]; rfl⟩
  obtain ⟨a, ha⟩ := List.mem_iff_getElem?.1 hs
  exact (g2.reg.cell a s ha).1

/-- The loop ends after at most twice as many rounds as there are cells, whatever the random numbers are; then there are no more samples than cells, and around every sample there was a round of
attempts each of which is infeasible, outside the grid, or too close to a sample. -/
theorem sample_exhausted {c : Cfg} (G : Good c) {first : P} (hb : InBox c first) (hf : c.feasible first = true) {pick : ℕ → ℕ → ℕ} (hp : ∀ f n, 0 < n → pick f n < n)
    (around : ℕ → ℕ → P → P) {fuel : ℕ} (hfuel : 2 * ((cellNumbers c).1 * (cellNumbers c).2) ≤ fuel) :
    ∃ st, sample c fullSize false first pick around fuel = some st ∧ st.active = [] ∧ (st.samples.length : ℤ) ≤ (cellNumbers c).1 * (cellNumbers c).2 ∧
      ∀ s ∈ st.samples, ∃ f, ∀ i < c.maxAttempts, Blocked c st.samples (around f i s) := by
  obtain ⟨st, h1, I, h2, h3⟩ := start_spec around G.dist G.box (inBox_inGrid G.dist hb) hf
  obtain ⟨st', ys, g1, g2, g3, g4⟩ := rounds_spec G hp fuel I
  have he : st'.active = [] := g4 (by rw [h2, h3]; simp only [List.length_cons, List.length_nil]; push_cast; omega)
  refine ⟨st', by simp only [sample, h1, g1], he, reg_count g2.reg, fun s hs => ?_⟩
  obtain ⟨a, ha⟩ := List.mem_iff_getElem?.1 hs
  rcases g2.tried a s ha with h | h
  · rw [he] at h; simp at h
  · exact h

/-- What `checkDistance` decides, for the samples registered by a run: the point is in the grid and away from every sample. -/
theorem check_exact {c : Cfg} (G : Good c) {first : P} (hb : InBox c first) (hf : c.feasible first = true) {pick : ℕ → ℕ → ℕ} (hp : ∀ f n, 0 < n → pick f n < n)
    (around : ℕ → ℕ → P → P) (fuel : ℕ) (x : P) :
    ∃ st b, sample c fullSize false first pick around fuel = some st ∧ checkDistance c x (side c) st.grid st.samples = some b ∧ (b = true ↔ InGrid c x ∧ ∀ s ∈ st.samples, c.Sep s x) := by
  obtain ⟨st, h1, I, -, -⟩ := start_spec around G.dist G.box (inBox_inGrid G.dist hb) hf
  obtain ⟨st', ys, g1, g2, -, -⟩ := rounds_spec G hp fuel I
  obtain ⟨b, hb1, hb2⟩ := check_spec G g2.reg x
  exact ⟨st', b, by simp only [sample, h1, g1], hb1, hb2⟩

example : Good (demo (3, 4) true) ∧ Good (demo (2.5, 2.5) false) ∧ InBox (demo (3, 4) true) (1, 1) := by
  have hc : cellNumbers (demo (3, 4) true) = (3, 4) := by
    rw [demo_cells]
    refine Prod.ext ?_ ?_ <;> · simp only; rw [Int.ceil_eq_iff]; norm_num
  refine ⟨⟨demo_dist _ _, by norm_num [demo], fun _ => ?_, fun _ => ?_⟩, ⟨demo_dist _ _, by norm_num [demo], fun h => by simp [demo] at h, fun h => by simp [demo] at h⟩, by norm_num [InBox, demo]⟩
  · rw [demo_side, hc]; norm_num [demo]
  · rw [hc]; decide

/-- Samples can lie outside the box: the last cells reach over its upper sides and only the grid is checked. -/
theorem box_violated : ∃ (c : Cfg) (st st' : State), Good c ∧ start c fullSize false (middle c) = some st ∧ attempt c st (2.75, 1.25) = some (st', true) ∧ (2.75, 1.25) ∈ st'.samples ∧ c.hi.1 < 2.75 := by
  have G : Good (demo (2.5, 2.5) false) := ⟨demo_dist _ _, by norm_num [demo], fun h => by simp [demo] at h, fun h => by simp [demo] at h⟩
  obtain ⟨st, h1, I, h2, -⟩ := start_spec (fun _ _ x => x) G.dist G.box (inBox_inGrid G.dist (middle_inBox G.box)) (rfl : (demo (2.5, 2.5) false).feasible (middle (demo (2.5, 2.5) false)) = true)
  have hbring : bring (demo (2.5, 2.5) false) (2.75, 1.25) = (2.75, 1.25) := rfl
  rcases attempt_spec G I (2.75, 1.25) with ⟨hB, -⟩ | ⟨-, g', ha, -⟩
  · exfalso
    rcases hB with h | h | ⟨s, hs, h⟩
    · simp [demo] at h
    · apply h
      have hc : cellNumbers (demo (2.5, 2.5) false) = (3, 3) := by
        rw [demo_cells]
        refine Prod.ext ?_ ?_ <;> · simp only; rw [Int.ceil_eq_iff]; norm_num
      have hi : toIndex (demo (2.5, 2.5) false) (2.75, 1.25) (side (demo (2.5, 2.5) false)) = (2, 1) := by
        rw [demo_index]
        refine Prod.ext ?_ ?_ <;> · simp only; rw [Int.floor_eq_iff]; norm_num
      rw [hbring, InGrid, hc, hi]; decide
    · rw [h2] at hs
      rw [List.mem_singleton.1 hs, hbring] at h
      apply h
      change Poisson.Sep _ _ _
      rw [Poisson.Sep, demo_sq]
      norm_num [nsq, middle, demo]
  · exact ⟨_, st, _, G, h1, ha, by rw [hbring]; simp, by norm_num [demo]⟩

/-- In periodic mode with two rows, checking a point in an empty cell of the first row reads outside the grid. -/
theorem periodic_narrow_violated {c : Cfg} (h : 0 < c.minDistance) (hb : c.lo.1 < c.hi.1 ∧ c.lo.2 < c.hi.2) (hper : c.periodic = true) (hn : (cellNumbers c).1 = 2) {first x : P}
    (hf : c.feasible first = true) (h1 : InBox c first) (hx : InGrid c x) (hx0 : (toIndex c x (side c)).1 = 0) (hne : toIndex c first (side c) ≠ toIndex c x (side c)) :
    ∃ st, start c fullSize false first = some st ∧ checkDistance c x (side c) st.grid st.samples = none := by
  obtain ⟨st, s1, I, s2, -⟩ := start_spec (fun _ _ x => x) h hb (inBox_inGrid h h1) hf
  refine ⟨st, s1, narrow_none I.reg hper hn hx hx0 ?_⟩
  obtain ⟨v, hv, hc⟩ := I.reg.back _ _ hx
  rcases hc with rfl | ⟨a, s, -, ha, hs⟩
  · exact hv
  · have := List.mem_iff_getElem?.2 ⟨a, ha⟩
    rw [s2, List.mem_singleton] at this
    subst this
    exact absurd hs hne

example : cellNumbers (demo (2, 4) true) = (2, 4) := by
  rw [demo_cells]
  refine Prod.ext ?_ ?_ <;> · simp only; rw [Int.ceil_eq_iff]; norm_num

/-- In periodic mode with a box that is not a whole number of cells wide, two samples can be closer than the distance across the boundary. -/
theorem periodic_seam_violated : ∃ (c : Cfg) (st st' : State), 0 < c.minDistance ∧ (c.lo.1 < c.hi.1 ∧ c.lo.2 < c.hi.2) ∧ c.periodic = true ∧ 3 ≤ (cellNumbers c).1 ∧ 3 ≤ (cellNumbers c).2 ∧
    start c fullSize false (2.8, 2) = some st ∧ attempt c st (0, 2) = some (st', true) ∧ st'.samples = [(2.8, 2), (0, 2)] ∧ ¬ c.Sep (2.8, 2) (0, 2) := by
  have hd := demo_dist (4.1, 5) true
  have hbox : (demo (4.1, 5) true).lo.1 < (demo (4.1, 5) true).hi.1 ∧ (demo (4.1, 5) true).lo.2 < (demo (4.1, 5) true).hi.2 := by norm_num [demo]
  have hc : cellNumbers (demo (4.1, 5) true) = (5, 5) := by
    rw [demo_cells]
    refine Prod.ext ?_ ?_ <;> · simp only; rw [Int.ceil_eq_iff]; norm_num
  have hb : InBox (demo (4.1, 5) true) (2.8, 2) := by norm_num [InBox, demo]
  have hb0 : InBox (demo (4.1, 5) true) (0, 2) := by norm_num [InBox, demo]
  obtain ⟨st, h1, I, h2, -⟩ := start_spec (fun _ _ x => x) hd hbox (inBox_inGrid hd hb) (rfl : (demo (4.1, 5) true).feasible (2.8, 2) = true)
  have hbring : bring (demo (4.1, 5) true) (0, 2) = (0, 2) := by
    norm_num [bring, demo, shiftIn]
  have R := I.reg
  rw [h2] at R
  have hck := seam_check R
  obtain ⟨g', hw, -⟩ := reg_add R (inBox_inGrid hd hb0) (by
    intro s hs e
    rw [List.mem_singleton.1 hs, demo_index, demo_index] at e
    have := (Prod.ext_iff.1 e).1
    simp only [Int.floor_zero] at this
    rw [Int.floor_eq_iff] at this
    norm_num at this)
  refine ⟨_, st, ⟨[(2.8, 2), (0, 2)], st.active ++ [1], g'⟩, hd, hbox, rfl, by rw [hc]; decide, by rw [hc]; decide, h1, ?_, rfl, ?_⟩
  · have he : attempt (demo (4.1, 5) true) st (0, 2) = if ¬ (demo (4.1, 5) true).feasible (bring (demo (4.1, 5) true) (0, 2)) then some (st, false)
      else
        match checkDistance (demo (4.1, 5) true) (bring (demo (4.1, 5) true) (0, 2)) (side (demo (4.1, 5) true)) st.grid st.samples with
        | none => none
        | some false => some (st, false)
        | some true =>
          match st.grid.write [(toIndex (demo (4.1, 5) true) (bring (demo (4.1, 5) true) (0, 2)) (side (demo (4.1, 5) true))).1,
              (toIndex (demo (4.1, 5) true) (bring (demo (4.1, 5) true) (0, 2)) (side (demo (4.1, 5) true))).2] st.samples.length with
          | none => none
          | some g => some (⟨st.samples ++ [bring (demo (4.1, 5) true) (0, 2)], st.active ++ [st.samples.length], g⟩, true) := rfl
    rw [he, hbring, if_neg (by simp [demo]), h2, hck]
    simp only
    rw [hw]
    rfl
  · intro H
    have := H (-1) 0
    rw [demo_sq] at this
    norm_num [nsq, demo] at this

end Verif.Poisson
