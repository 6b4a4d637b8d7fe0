import Verif.Proof.PoissonRun

/-! Helper lemmas for the failing cases. -/
namespace Verif.Poisson

theorem off_last {dims : List ℤ} (h : ∀ n ∈ dims, 0 < n) : InRange (dims.map fun n => n - 1) dims ∧ off dims (dims.map fun n => n - 1) = dims.prod - 1 := by
  induction dims with
  | nil => exact ⟨List.Forall₂.nil, by simp [off_nil]⟩
  | cons n t ih =>
    obtain ⟨h1, h2⟩ := ih fun m hm => h m (List.mem_cons_of_mem _ hm)
    have hn := h n List.mem_cons_self
    refine ⟨List.Forall₂.cons ⟨by simp only; omega, by simp only; omega⟩ h1, ?_⟩
    rw [List.map_cons, off_cons, h2, List.prod_cons]; ring

theorem read_make (size : List ℤ → ℤ) (dims idx : List ℤ) (v : ℤ) :
    (Grid.make size dims v).read idx = if 0 ≤ off dims idx then (List.replicate (size dims).toNat v)[(off dims idx).toNat]? else none := by
  rw [Grid.read, offset_eq rfl]; rfl

theorem read_make_none {size : List ℤ → ℤ} {dims idx : List ℤ} {v : ℤ} (h : size dims ≤ off dims idx) : (Grid.make size dims v).read idx = none := by
  rw [read_make]
  split
  · rw [List.getElem?_replicate, if_neg (by omega)]
  · rfl

theorem write_make_none {size : List ℤ → ℤ} {dims idx : List ℤ} {v w : ℤ} (h : size dims ≤ off dims idx) : (Grid.make size dims v).write idx w = none := by
  rw [Grid.write, offset_eq rfl, if_neg]
  simp only [Grid.make, List.length_replicate]
  omega

theorem codeSize2 (n m : ℤ) : codeSize [n, m] = m := by simp [codeSize, exclSuffixProd]

theorem off2 (n m a b : ℤ) : off [n, m] [a, b] = a * m + b := by simp [off, exclSuffixProd]

theorem middle_row {c : Cfg} (h : 0 < c.minDistance) (hn : 3 ≤ (cellNumbers c).1) : 1 ≤ (toIndex c (middle c) (side c)).1 := by
  have hs := side_pos h
  have h2 : (2 : ℝ) < (c.hi.1 - c.lo.1) / side c := by
    have : (2 : ℤ) < ⌈(c.hi.1 - c.lo.1) / side c⌉ := by unfold cellNumbers at hn; simp only at hn; omega
    exact_mod_cast Int.lt_ceil.1 this
  rw [lt_div_iff₀ hs] at h2
  simp only [toIndex, middle]
  rw [Int.le_floor]
  push_cast
  rw [le_div_iff₀ hs]
  linarith

theorem middle_inBox {c : Cfg} (hb : c.lo.1 < c.hi.1 ∧ c.lo.2 < c.hi.2) : InBox c (middle c) := by
  simp only [InBox, middle]
  refine ⟨⟨?_, ?_⟩, ?_, ?_⟩ <;> linarith [hb.1, hb.2]

theorem between_inBox {c : Cfg} (hb : c.lo.1 < c.hi.1 ∧ c.lo.2 < c.hi.2) {r : P} (h0 : 0 ≤ r.1 ∧ r.1 < 1) (h1 : 0 ≤ r.2 ∧ r.2 < 1) : InBox c (between c r) := by
  have a := mul_nonneg (sub_nonneg.2 hb.1.le) h0.1
  have b := mul_nonneg (sub_nonneg.2 hb.2.le) h1.1
  have d := mul_lt_mul_of_pos_left h0.2 (sub_pos.2 hb.1)
  have e := mul_lt_mul_of_pos_left h1.2 (sub_pos.2 hb.2)
  simp only [InBox, between]
  refine ⟨⟨?_, ?_⟩, ?_, ?_⟩ <;> linarith

theorem loop_head {a b : ℤ} (h : a < b) : ∃ t, loop a b = a :: t := by
  obtain ⟨k, hk⟩ : ∃ k : ℕ, (b - a).toNat = k + 1 := ⟨(b - a).toNat - 1, by omega⟩
  rw [loop, hk, List.range_succ_eq_map]
  refine ⟨(List.range k).map ((fun (k : ℕ) => a + (k : ℤ)) ∘ Nat.succ), by simp⟩

/-- In periodic mode with two cells, the first access for a point in the first row is outside the grid. -/
theorem narrow_none {c : Cfg} {g : Grid} {samples : List P} (R : Reg c g samples) (hper : c.periodic = true) (hn : (cellNumbers c).1 = 2) {p : P} (hp : InGrid c p)
    (h0 : (toIndex c p (side c)).1 = 0) (he : g.read [(toIndex c p (side c)).1, (toIndex c p (side c)).2] = some (-1)) : checkDistance c p (side c) g samples = none := by
  unfold checkDistance
  simp only [domain0 R.dims, domain1 R.dims]
  rw [if_neg (by unfold InGrid at hp; omega), he]
  simp only [hper, if_true, ne_eq, not_true_eq_false, if_false]
  obtain ⟨t, ht⟩ := loop_head (show (toIndex c p (side c)).1 - 2 < (toIndex c p (side c)).1 + 3 by omega)
  obtain ⟨t', ht'⟩ := loop_head (show (toIndex c p (side c)).2 - 2 < (toIndex c p (side c)).2 + 3 by omega)
  rw [ht, ht', List.flatMap_cons, List.map_cons, List.cons_append]
  have hlook : look0 c g ((toIndex c p (side c)).1 - 2, (toIndex c p (side c)).2 - 2) = (2, c.lo.1 - c.hi.1) := by
    simp only [look0, hper, if_true, domain0 R.dims, hn, h0, wrap]
    norm_num
  have hb : 0 ≤ (look1 c g ((toIndex c p (side c)).1 - 2, (toIndex c p (side c)).2 - 2)).1 := by
    simp only [look1, hper, if_true, domain1 R.dims, wrap]
    have h2 := hp.2
    split
    · simp only
      have := Int.lt_tmod_of_pos ((toIndex c p (side c)).2 - 2) (show 0 < (cellNumbers c).2 by omega)
      omega
    · split
      · exact Int.tmod_nonneg _ (by omega)
      · simp only; omega
  have hread : g.read [(look0 c g ((toIndex c p (side c)).1 - 2, (toIndex c p (side c)).2 - 2)).1, (look1 c g ((toIndex c p (side c)).1 - 2, (toIndex c p (side c)).2 - 2)).1] = none := by
    have hsz := R.ok.size
    rw [R.dims, hn] at hsz
    simp only [List.prod_cons, List.prod_nil] at hsz
    rw [hlook, Grid.read, offset_eq R.ok.weights, R.dims, off2]
    split
    · rw [List.getElem?_eq_none]
      simp only at hb ⊢
      omega
    · rfl
  have hs : ∀ j js, g.read [(look0 c g j).1, (look1 c g j).1] = none → search c p g samples (j :: js) = none := by
    intro j js h
    unfold look0 look1 at h
    rw [search, h]
  exact hs _ _ hread

theorem shift_one {x s lo hi : ℝ} (h1 : lo ≤ s) (h2 : s < hi) (hd : |x - s| ≤ hi - lo) : ∃ k : ℤ, shiftIn x lo hi = x + k * (hi - lo) ∧ lo ≤ shiftIn x lo hi ∧ shiftIn x lo hi ≤ hi := by
  obtain ⟨d1, d2⟩ := abs_le.1 hd
  unfold shiftIn
  by_cases a : x < lo
  · rw [if_pos a]; exact ⟨1, by push_cast; ring, by linarith, by linarith⟩
  · rw [if_neg a]
    by_cases b : x > hi
    · rw [if_pos b]; exact ⟨-1, by push_cast; ring, by linarith, by linarith⟩
    · rw [if_neg b]; exact ⟨0, by push_cast; ring, by linarith, by linarith⟩

/-- In periodic mode the grid is the box. -/
theorem inGrid_inBox {c : Cfg} (G : Good c) (hper : c.periodic = true) {x : P} (h : InGrid c x) : InBox c x := by
  have hs := side_pos G.dist
  have key : ∀ {x lo hi : ℝ} {n : ℤ}, hi - lo = n * side c → 0 ≤ ⌊(x - lo) / side c⌋ → ⌊(x - lo) / side c⌋ < n → lo ≤ x ∧ x < hi := by
    intro x lo hi n hw h0 h1
    have a := Int.floor_nonneg.1 h0
    have b := Int.floor_lt.1 h1
    rw [div_lt_iff₀ hs] at b
    have d := mul_nonneg a hs.le
    rw [div_mul_cancel₀ _ hs.ne'] at d
    constructor <;> linarith
  exact ⟨key (G.whole hper).1 h.1.1 h.1.2, key (G.whole hper).2 h.2.1 h.2.2⟩

theorem two_dist {c : Cfg} (G : Good c) (hper : c.periodic = true) {a b : ℝ} (h : nsq (a, b) ≤ (2 * c.minDistance) ^ 2) : |a| ≤ c.hi.1 - c.lo.1 ∧ |b| ≤ c.hi.2 - c.lo.2 := by
  have hs := side_pos G.dist
  have e := side_sq c
  have w := G.wide hper
  rw [(G.whole hper).1, (G.whole hper).2]
  have w1 : (3 : ℝ) * side c ≤ (cellNumbers c).1 * side c := mul_le_mul_of_nonneg_right (by exact_mod_cast w.1) hs.le
  have w2 : (3 : ℝ) * side c ≤ (cellNumbers c).2 * side c := mul_le_mul_of_nonneg_right (by exact_mod_cast w.2) hs.le
  simp only [nsq] at h
  constructor
  · refine (abs_le_of_sq_le_sq ?_ (by linarith)).trans w1
    nlinarith [mul_self_nonneg b]
  · refine (abs_le_of_sq_le_sq ?_ (by linarith)).trans w2
    nlinarith [mul_self_nonneg a]

/-! ### A square of two and a half cells -/

/-- Distance `√2`, so that the cells have side one. -/
noncomputable def demo (hi : P) (periodic : Bool) : Cfg := ⟨Real.sqrt 2, (0, 0), hi, 30, periodic, fun _ => true⟩

theorem demo_side (hi : P) (b : Bool) : side (demo hi b) = 1 := div_self (Real.sqrt_pos.2 (by norm_num)).ne'

theorem demo_dist (hi : P) (b : Bool) : 0 < (demo hi b).minDistance := Real.sqrt_pos.2 (by norm_num)

theorem demo_sq (hi : P) (b : Bool) : (demo hi b).minDistance * (demo hi b).minDistance = 2 := Real.mul_self_sqrt (by norm_num)

theorem demo_cells (hi : P) (b : Bool) : cellNumbers (demo hi b) = (⌈hi.1⌉, ⌈hi.2⌉) := by
  simp [cellNumbers, demo_side]; simp [demo]

theorem demo_index (hi : P) (b : Bool) (x : P) : toIndex (demo hi b) x (side (demo hi b)) = (⌊x.1⌋, ⌊x.2⌋) := by
  simp [toIndex, demo_side]; simp [demo]

theorem cell_of_read {c : Cfg} {g : Grid} {samples : List P} (R : Reg c g samples) {i j : ℤ} (h : (0 ≤ i ∧ i < (cellNumbers c).1) ∧ 0 ≤ j ∧ j < (cellNumbers c).2) {a : ℕ} {s : P}
    (hr : g.read [i, j] = some (a : ℤ)) (hs : samples[a]? = some s) : toIndex c s (side c) = (i, j) := by
  obtain ⟨v, hv, hc⟩ := R.back i j h
  rw [hr] at hv
  obtain rfl := Option.some.inj hv
  rcases hc with e | ⟨a', s', e1, e2, e3⟩
  · omega
  · have : a = a' := by omega
    subst this
    rw [hs] at e2
    obtain rfl := Option.some.inj e2
    exact e3

theorem seam_check {g : Grid} (R : Reg (demo (4.1, 5) true) g [(2.8, 2)]) : checkDistance (demo (4.1, 5) true) (0, 2) (side (demo (4.1, 5) true)) g [(2.8, 2)] = some true := by
  have hn : cellNumbers (demo (4.1, 5) true) = (5, 5) := by
    rw [demo_cells]
    refine Prod.ext ?_ ?_
    · simp only; rw [Int.ceil_eq_iff]; norm_num
    · simp only; rw [Int.ceil_eq_iff]; norm_num
  have hi : toIndex (demo (4.1, 5) true) (0, 2) (side (demo (4.1, 5) true)) = (0, 2) := by
    rw [demo_index]
    refine Prod.ext ?_ ?_
    · simp
    · simp only; rw [Int.floor_eq_iff]; norm_num
  have hs : toIndex (demo (4.1, 5) true) (2.8, 2) (side (demo (4.1, 5) true)) = (2, 2) := by
    rw [demo_index]
    refine Prod.ext ?_ ?_
    · simp only; rw [Int.floor_eq_iff]; norm_num
    · simp only; rw [Int.floor_eq_iff]; norm_num
  have hper : (demo (4.1, 5) true).periodic = true := rfl
  have hw := fun j => window_mem R.dims (0, 2) j
  unfold checkDistance
  rw [hi]
  simp only [domain0 R.dims, domain1 R.dims] at hw ⊢
  rw [if_neg (by rw [hn]; decide)]
  obtain ⟨v, hv, hc⟩ := R.back 0 2 (by rw [hn]; decide)
  rcases hc with rfl | ⟨a, s, rfl, ha, hs'⟩
  · rw [hv]
    simp only [ne_eq, not_true_eq_false, if_false]
    have hlook : ∀ j, InWindow (demo (4.1, 5) true) (0, 2) j → look0 (demo (4.1, 5) true) g j = (j.1 % 5, ((j.1 / 5 : ℤ) : ℝ) * (4.1 - 0)) ∧
        look1 (demo (4.1, 5) true) g j = (j.2 % 5, ((j.2 / 5 : ℤ) : ℝ) * (5 - 0)) := by
      intro j hj
      obtain ⟨⟨h1, h2⟩, -⟩ := hj
      unfold look0 look1
      simp only at h1 h2
      rw [if_pos hper, if_pos hper, domain0 R.dims, domain1 R.dims, hn, wrap_eq (by omega) (by omega) (by simp only; omega), wrap_eq (by omega) (by omega) (by simp only; omega)]
      exact ⟨rfl, rfl⟩
    have hrange : ∀ j, InWindow (demo (4.1, 5) true) (0, 2) j → (0 ≤ (look0 (demo (4.1, 5) true) g j).1 ∧ (look0 (demo (4.1, 5) true) g j).1 < (cellNumbers (demo (4.1, 5) true)).1) ∧
        0 ≤ (look1 (demo (4.1, 5) true) g j).1 ∧ (look1 (demo (4.1, 5) true) g j).1 < (cellNumbers (demo (4.1, 5) true)).2 := by
      intro j hj
      rw [(hlook j hj).1, (hlook j hj).2, hn]
      simp only
      omega
    obtain ⟨b, hb, hbi⟩ := search_spec (demo (4.1, 5) true) (0, 2) g [(2.8, 2)] _ (fun j hj => by
      obtain ⟨v, h1, h2⟩ := R.back _ _ (hrange j ((hw j).1 hj))
      refine ⟨v, h1, h2.imp id ?_⟩
      rintro ⟨a, s, e, f, -⟩
      exact ⟨a, s, e, f⟩)
    rw [hb, hbi.2]
    intro j hj a s hr has
    have hj' := (hw j).1 hj
    have hcell := cell_of_read R (hrange j hj') hr has
    have hs' : s = (2.8, 2) := by
      have := List.mem_iff_getElem?.2 ⟨a, has⟩
      simpa using this
    subst hs'
    rw [hs, (hlook j hj').1, (hlook j hj').2] at hcell
    obtain ⟨⟨h1, h2⟩, -⟩ := hj'
    have e := Prod.ext_iff.1 hcell
    simp only at e h1 h2
    have e1 : j.1 = 2 := by omega
    have e2 : j.2 = 2 := by omega
    rw [(hlook j ((hw j).1 hj)).1, (hlook j ((hw j).1 hj)).2, demo_sq, e1, e2]
    simp only [nsq]
    norm_num
  · have : s = (2.8, 2) := by
      have := List.mem_iff_getElem?.2 ⟨a, ha⟩
      simpa using this
    subst this
    rw [hs] at hs'
    simp at hs'

end Verif.Poisson
