import Verif.Proof.SpatialHash
import Verif.Spec.SpatialHash
import Mathlib.Order.Monotone.Defs
import Mathlib.Data.Rat.Defs
import Mathlib.Algebra.Order.Ring.Rat
/-! Properties of the spatial hash: C52. -/
namespace Verif.SpatialHash
open Verif.Phase
open Verif.Bvh (Box)

variable {m : Nat} {T : Type} {p : Params} {scale : T → Rat} {small : Bool} {prims : List (Box (m + 1) T)} {old t : Hash T}

/-- The cells of primitive `i`. -/
def cellsOf (scale : T → Rat) (prims : List (Box (m + 1) T)) (i : Nat) : List Key := (prims[i]?.bind (cells scale)).getD []

/-- No cell of a primitive has the sentinel key of the table. -/
def NoHole (p : Params) (scale : T → Rat) (prims : List (Box (m + 1) T)) : Prop := ∀ i, p.hole ∉ cellsOf scale prims i

/-! ## The cells -/

/-- The loop over `Collapse(ma - mi)` visits the cells of the box, each once. -/
theorem spatial_hash_cells {b : Box (m + 1) T} {ks : List Key} (h : cells scale b = some ks) :
    ks.Nodup ∧ ∀ k : Key, k ∈ ks ↔ ∃ f, k = List.ofFn f ∧ Covers scale b f := by
  refine ⟨nodup_cells h, fun k => ?_⟩
  rw [mem_cells h]
  have : ∀ f : Fin (m + 1) → Int, (∀ d, (scale (b.lo d)).floor ≤ f d ∧ f d < stop scale b d) ↔ Covers scale b f := by
    intro f
    unfold Covers stop
    refine forall_congr' fun d => and_congr_right fun h1 => ?_
    by_cases e : d = 0
    · simp [e]
    · rw [if_neg e]
      simp only [e, ne_eq, not_false_eq_true, true_and]
      omega
  simp only [this]

/-- The loop ends, and `cells` is what it visits, unless the box is turned inside out in its first dimension. -/
theorem spatial_hash_loop {b : Box (m + 1) T} (h : scale (b.lo 0) ≤ scale (b.hi 0)) :
    ∃ locs f₀, cells scale b = some (locs.map fun loc => List.zipWith (fun a (l : Nat) => a + l) (lower scale b) loc) ∧
      ∀ f, f₀ ≤ f → Iter.collapseValues ((extents scale b).map Int.toNat) f = some locs := by
  obtain ⟨ks, hk⟩ := cells_some h
  have e : ∃ n ns, (extents scale b).map Int.toNat = n :: ns := by
    rw [extents_eq, List.ofFn_succ, List.map_cons]
    exact ⟨_, _, rfl⟩
  obtain ⟨n, ns, e⟩ := e
  obtain ⟨f₀, hf⟩ := Iter.collapse_visits n ns
  refine ⟨Iter.tuples (Iter.effective ((extents scale b).map Int.toNat)), f₀, ?_, by rw [e]; exact hf⟩
  unfold cells at hk ⊢
  split at hk
  · cases hk
  · next hn => rw [if_neg hn]

/-! ## What the build leaves -/

theorem mapM_cells : ∀ {prims : List (Box (m + 1) T)} {cs : List (List Key)}, prims.mapM (cells scale) = some cs →
    cs.length = prims.length ∧ ∀ i, cs.getD i [] = cellsOf scale prims i := by
  intro prims
  induction prims with
  | nil => intro cs h; cases h; exact ⟨rfl, fun i => by simp [cellsOf]⟩
  | cons b prims ih =>
    intro cs h
    rw [List.mapM_cons] at h
    cases hb : cells scale b with
    | none => rw [hb] at h; cases h
    | some ks =>
      rw [hb] at h
      cases hr : prims.mapM (cells scale) with
      | none => rw [hr] at h; cases h
      | some cs' =>
        rw [hr] at h
        cases h
        obtain ⟨h1, h2⟩ := ih hr
        refine ⟨by simp [h1], fun i => ?_⟩
        cases i with
        | zero => simp [cellsOf, hb]
        | succ i => rw [List.getD_cons_succ, h2]; simp [cellsOf]

theorem flatten_hole {cs : List (List Key)} (hh : NoHole p scale prims) (h : ∀ i, cs.getD i [] = cellsOf scale prims i) :
    ∀ k ∈ cs.flatten, k ≠ p.hole := by
  intro k hk e
  obtain ⟨l, hl, hkl⟩ := List.mem_flatten.1 hk
  obtain ⟨i, hi, rfl⟩ := List.getElem_of_mem hl
  refine hh i ?_
  rw [← h, List.getD_eq_getElem?_getD, List.getElem?_eq_getElem hi, ← e]
  exact hkl

theorem nb_ne_zero (hp : ∀ n, n ≤ p.next2pow n) {n : Nat} (hn : n ≠ 0) : (p.cfg n).nb ≠ 0 := by
  obtain ⟨⟨q, e⟩, h2⟩ := Bht.bht_table_size (B := 16) (hp n) hn (by decide)
  simp only [Params.cfg, e]
  omega

/-- A finished structure lists, in every cell, the primitives that have this cell. -/
theorem build_ok (hp : ∀ n, n ≤ p.next2pow n) (hne : prims ≠ []) (hh : NoHole p scale prims) (h : Build p scale small prims old (.ok t)) :
    t.scale = scale ∧ ∀ k, k ≠ p.hole → ∃ l, visitCell t k = some l ∧ ∀ i, l.count i = (cellsOf scale prims i).count k := by
  generalize e : Outcome.ok t = o at h
  cases h with
  | side => cases e
  | none _ h => exact absurd h hne
  | endless => cases e
  | table _ _ _ _ _ => revert e; split <;> intro e <;> cases e
  | count => cases e
  | @place cs act ind tb sched sched' counts offsets indices r _ _ h3 h4 h5 h6 h7 h8 h9 h10 =>
    obtain ⟨m1, m2⟩ := mapM_cells h3
    have hk := flatten_hole hh m2
    have hn : prims.length ≠ 0 := fun e => hne (List.length_eq_zero_iff.1 e)
    obtain ⟨t1, t2, t3⟩ := filled_ok hk hp hn h4 (tinv_new (nb_ne_zero hp hn) act ind) tb rfl
    obtain ⟨counts', c1, c2⟩ := lists_spec (T := T) m1 hk t1 t2 t3 h5
    rw [h6] at c1
    cases c1
    obtain ⟨st, s1, s2⟩ := c2 offsets indices sched' h7 h8 h9
    rw [h10] at s1
    subst s1
    cases e
    refine ⟨rfl, fun k hk' => ?_⟩
    obtain ⟨l, l1, l2⟩ := s2 scale k hk'
    exact ⟨l, l1, fun i => by rw [l2, m2]⟩

/-- If the table takes all cells, the build finishes. -/
theorem build_exists (hp : ∀ n, n ≤ p.next2pow n) (hne : prims ≠ []) (hh : NoHole p scale prims) {cs : List (List Key)} (hc : prims.mapM (cells scale) = some cs)
    {act : Nat → Key} {ind : Nat → Nat} {tb : Table}
    (hf : Filled p cs.flatten 0 prims.length ⟨p.cfg prims.length, 0, act, [], (p.cfg prims.length).empty 0 act ind⟩ (.ok tb)) :
    ∃ t, Build p scale false prims old (.ok t) := by
  obtain ⟨m1, m2⟩ := mapM_cells hc
  have hk := flatten_hole hh m2
  have hn : prims.length ≠ 0 := fun e => hne (List.length_eq_zero_iff.1 e)
  obtain ⟨t1, t2, t3⟩ := filled_ok hk hp hn hf (tinv_new (nb_ne_zero hp hn) act ind) tb rfl
  obtain ⟨sched, hs⟩ := interleave_exists prims.length (visits cs)
  obtain ⟨counts, c1, c2⟩ := lists_spec (T := T) m1 hk t1 t2 t3 hs
  obtain ⟨offsets, ho⟩ := Sparse.exScan_exists counts
  obtain ⟨st, s1, _⟩ := c2 offsets (List.replicate (offsets.getD tb.tab.cnt 0) 0) sched ho (by simp) hs
  exact ⟨_, .place rfl hne hc hf hs c1 ho (by simp) hs s1⟩

/-! ## Queries -/

theorem mapM_count {α : Type} [DecidableEq α] {β : Type} {f : β → Option (List α)} {g : β → Nat} (i : α) : ∀ {ks : List β} {ls : List (List α)},
    ks.mapM f = some ls → (∀ k ∈ ks, ∀ l, f k = some l → l.count i = g k) → ls.flatten.count i = (ks.map g).sum := by
  intro ks
  induction ks with
  | nil => intro ls h _; cases h; rfl
  | cons k ks ih =>
    intro ls h hg
    rw [List.mapM_cons] at h
    cases hb : f k with
    | none => rw [hb] at h; cases h
    | some l =>
      rw [hb] at h
      cases hr : ks.mapM f with
      | none => rw [hr] at h; cases h
      | some ls' =>
        rw [hr] at h
        cases h
        rw [List.flatten_cons, List.count_append, ih hr fun k hk => hg k (List.mem_cons_of_mem _ hk), List.map_cons, List.sum_cons,
          hg k List.mem_cons_self l hb]

theorem mapM_some {α β : Type} {f : α → Option β} : ∀ {ks : List α}, (∀ k ∈ ks, ∃ l, f k = some l) → ∃ ls, ks.mapM f = some ls := by
  intro ks
  induction ks with
  | nil => intro _; exact ⟨[], rfl⟩
  | cons k ks ih =>
    intro h
    obtain ⟨l, hl⟩ := h k List.mem_cons_self
    obtain ⟨ls, hls⟩ := ih fun k hk => h k (List.mem_cons_of_mem _ hk)
    exact ⟨l :: ls, by rw [List.mapM_cons, hl, hls]; rfl⟩

theorem cellsOf_nodup (i : Nat) : (cellsOf scale prims i).Nodup := by
  unfold cellsOf
  cases hb : prims[i]? with
  | none => simp
  | some b =>
    cases hc : cells scale b with
    | none => simp [hc]
    | some ks => simp only [Option.bind_some, hc, Option.getD_some]; exact nodup_cells hc

/-- `iter_neighbors(bv, f)` calls `f` with a primitive as often as the number of cells it has in common with the box,
under every interleaving of the kernels of `build`, and does not leave the arrays. -/
theorem spatial_hash_reports (hp : ∀ n, n ≤ p.next2pow n) (hne : prims ≠ []) (hh : NoHole p scale prims) (h : Build p scale small prims old (.ok t))
    {bv : Box (m + 1) T} {ks : List Key} (hk : cells scale bv = some ks) (hkh : p.hole ∉ ks) :
    ∃ found, iterNeighbors t bv = some found ∧ ∀ i, found.count i = ks.countP (fun k => k ∈ cellsOf scale prims i) := by
  obtain ⟨e, hv⟩ := build_ok hp hne hh h
  have hv' : ∀ k ∈ ks, ∃ l, visitCell t k = some l ∧ ∀ i, l.count i = (cellsOf scale prims i).count k :=
    fun k hk' => hv k fun e => hkh (e ▸ hk')
  obtain ⟨ls, hls⟩ := mapM_some (f := visitCell t) fun k hk' => (hv' k hk').imp fun _ h => h.1
  refine ⟨ls.flatten, by rw [iterNeighbors, e, hk, Option.bind_some, hls]; rfl, fun i => ?_⟩
  rw [mapM_count (g := fun k => (cellsOf scale prims i).count k) i hls]
  · clear hls hv' hk hkh
    induction ks with
    | nil => rfl
    | cons k ks ih =>
      rw [List.map_cons, List.sum_cons, ih, List.countP_cons, (cellsOf_nodup i).count]
      simp only [decide_eq_true_eq]
      omega
  · intro k hk' l hl
    obtain ⟨l', h1, h2⟩ := hv' k hk'
    rw [hl] at h1
    cases h1
    exact h2 i

/-- `iter_neighbors(x, f)` calls `f` once with every primitive that has the cell of the point. -/
theorem spatial_hash_point (hp : ∀ n, n ≤ p.next2pow n) (hne : prims ≠ []) (hh : NoHole p scale prims) (h : Build p scale small prims old (.ok t))
    (x : Fin (m + 1) → T) (hx : p.hole ≠ List.ofFn fun d => (scale (x d)).floor) :
    ∃ found, iterPoint t x = some found ∧ found.Nodup ∧ ∀ i, i ∈ found ↔ (List.ofFn fun d => (scale (x d)).floor) ∈ cellsOf scale prims i := by
  obtain ⟨e, hv⟩ := build_ok hp hne hh h
  obtain ⟨l, h1, h2⟩ := hv _ (Ne.symm hx)
  refine ⟨l, by rw [iterPoint, e]; exact h1, ?_, fun i => ?_⟩
  · rw [List.nodup_iff_count_le_one]
    intro i
    rw [h2]
    exact List.nodup_iff_count_le_one.1 (cellsOf_nodup i) _
  · rw [← List.count_pos_iff, h2, List.count_pos_iff]

theorem mem_cellsOf {i : Nat} {f : Fin (m + 1) → Int} {b : Box (m + 1) T} (hb : prims[i]? = some b) (hs : scale (b.lo 0) ≤ scale (b.hi 0)) :
    List.ofFn f ∈ cellsOf scale prims i ↔ Covers scale b f := by
  obtain ⟨ks, hk⟩ := cells_some hs
  unfold cellsOf
  rw [hb, Option.bind_some, hk, Option.getD_some, (spatial_hash_cells hk).2]
  constructor
  · rintro ⟨g, e, hg⟩
    rw [List.ofFn_injective e]
    exact hg
  · exact fun h => ⟨f, rfl, h⟩

variable [Preorder T]

/-- A box has the cell of a point `x` in it, unless the point lies in the plane between two cells where the box ends. -/
theorem covers_of_mem (hm : Monotone scale) {b : Box (m + 1) T} {x y : Fin (m + 1) → T} (h : ∀ d, b.lo d ≤ x d ∧ x d ≤ y d ∧ y d ≤ b.hi d)
    (hg : ∀ (d : Fin (m + 1)) (z : Int), scale (x d) = z → scale (y d) ≠ z) : Covers scale b fun d => (scale (x d)).floor := by
  intro d
  obtain ⟨h1, h2, h3⟩ := h d
  refine ⟨Rat.floor_monotone (hm h1), .inl ?_⟩
  show (scale (x d)).floor < _
  apply Classical.byContradiction
  intro hn
  have a1 : (scale (b.hi d)).ceil ≤ (scale (x d)).floor := by omega
  have a2 : ((scale (b.hi d)).ceil : Rat) ≤ ((scale (x d)).floor : Rat) := Rat.intCast_le_intCast.2 a1
  have a3 := Rat.le_ceil (x := scale (b.hi d))
  have a4 := Rat.floor_le (scale (x d))
  have a5 := hm h2
  have a6 := hm h3
  refine hg d (scale (x d)).floor ?_ ?_
  · exact Rat.le_antisymm (Rat.le_trans a5 (Rat.le_trans a6 (Rat.le_trans a3 a2))) a4
  · exact Rat.le_antisymm (Rat.le_trans a6 (Rat.le_trans a3 a2)) (Rat.le_trans a4 a5)

/-- C52: a primitive that overlaps the query box is reported, if the common part does not lie in a plane between two
cells: in every dimension, it has coordinates `x ≤ y` that are not the same multiple of the side length.

Missing: boxes that only touch in such a plane, and boxes that are flat in one; `spatial_hash_touching_violated` and
`spatial_hash_flat_violated` show that these are missed. -/
theorem spatial_hash_finds_partial (hp : ∀ n, n ≤ p.next2pow n) (hm : Monotone scale) (hh : NoHole p scale prims) (h : Build p scale small prims old (.ok t))
    {i : Nat} {b bv : Box (m + 1) T} (hb : prims[i]? = some b) {ks : List Key} (hk : cells scale bv = some ks) (hkh : p.hole ∉ ks) {x y : Fin (m + 1) → T}
    (h1 : ∀ d, b.lo d ≤ x d ∧ x d ≤ y d ∧ y d ≤ b.hi d) (h2 : ∀ d, bv.lo d ≤ x d ∧ y d ≤ bv.hi d)
    (hg : ∀ (d : Fin (m + 1)) (z : Int), scale (x d) = z → scale (y d) ≠ z) : ∃ found, iterNeighbors t bv = some found ∧ i ∈ found := by
  have hne : prims ≠ [] := by rintro rfl; simp at hb
  obtain ⟨found, f1, f2⟩ := spatial_hash_reports hp hne hh h hk hkh
  refine ⟨found, f1, List.count_pos_iff.1 ?_⟩
  rw [f2, List.countP_pos_iff]
  refine ⟨List.ofFn fun d => (scale (x d)).floor, ?_, decide_eq_true ?_⟩
  · exact ((spatial_hash_cells hk).2 _).2 ⟨_, rfl, covers_of_mem hm (fun d => ⟨(h2 d).1, (h1 d).2.1, (h2 d).2⟩) hg⟩
  · exact (mem_cellsOf hb (hm (le_trans (h1 0).1 (le_trans (h1 0).2.1 (h1 0).2.2)))).2 (covers_of_mem hm h1 hg)

/-- C52: a primitive that contains the query point is reported, if the point does not lie in a plane between two cells
where the primitive ends.  Missing: such points; see `spatial_hash_point_violated`. -/
theorem spatial_hash_point_partial (hp : ∀ n, n ≤ p.next2pow n) (hm : Monotone scale) (hh : NoHole p scale prims) (h : Build p scale small prims old (.ok t))
    {i : Nat} {b : Box (m + 1) T} (hb : prims[i]? = some b) {x : Fin (m + 1) → T} (hx : p.hole ≠ List.ofFn fun d => (scale (x d)).floor)
    (h1 : ∀ d, b.lo d ≤ x d ∧ x d ≤ b.hi d) (hg : ∀ (d : Fin (m + 1)) (z : Int), scale (x d) = z → scale (b.hi d) ≠ z) :
    ∃ found, iterPoint t x = some found ∧ i ∈ found := by
  have hne : prims ≠ [] := by rintro rfl; simp at hb
  obtain ⟨found, f1, _, f2⟩ := spatial_hash_point hp hne hh h x hx
  refine ⟨found, f1, (f2 i).2 ((mem_cellsOf hb (hm (le_trans (h1 0).1 (h1 0).2))).2 ?_)⟩
  exact covers_of_mem (y := b.hi) hm (fun d => ⟨(h1 d).1, (h1 d).2, le_refl _⟩) hg

omit [Preorder T] in
/-- What is reported is near: in every dimension less than one cell away. -/
theorem spatial_hash_near (hp : ∀ n, n ≤ p.next2pow n) (hne : prims ≠ []) (hh : NoHole p scale prims) (h : Build p scale small prims old (.ok t))
    (hv : ∀ b ∈ prims, ∀ d, scale (b.lo d) ≤ scale (b.hi d)) {bv : Box (m + 1) T} (hbv : ∀ d, scale (bv.lo d) ≤ scale (bv.hi d)) {ks : List Key}
    (hk : cells scale bv = some ks) (hkh : p.hole ∉ ks) {found : List Nat} (hf : iterNeighbors t bv = some found) {i : Nat} (hi : i ∈ found) :
    ∃ b, prims[i]? = some b ∧ ∀ d, scale (b.lo d) < scale (bv.hi d) + 1 ∧ scale (bv.lo d) < scale (b.hi d) + 1 := by
  obtain ⟨found', f1, f2⟩ := spatial_hash_reports hp hne hh h hk hkh
  rw [hf] at f1
  cases f1
  have := List.count_pos_iff.2 hi
  rw [f2, List.countP_pos_iff] at this
  obtain ⟨k, hk1, hk2⟩ := this
  obtain ⟨f, rfl, hc⟩ := ((spatial_hash_cells hk).2 k).1 hk1
  have hk2 := of_decide_eq_true hk2
  cases hb : prims[i]? with
  | none => simp [cellsOf, hb] at hk2
  | some b =>
    have hvb := hv b (List.mem_of_getElem? hb)
    have hc' := (mem_cellsOf hb (hvb 0)).1 hk2
    -- the cell of one box begins before the other box ends
    have key : ∀ (a a' : Box (m + 1) T), (∀ d, scale (a'.lo d) ≤ scale (a'.hi d)) → Covers scale a f → Covers scale a' f → ∀ d, scale (a.lo d) < scale (a'.hi d) + 1 := by
      intro a a' hva h1 h2 d
      have b1 := Rat.lt_floor_add_one (scale (a.lo d))
      have b2 : ((((scale (a.lo d)).floor + 1 : Int)) : Rat) ≤ ((f d + 1 : Int) : Rat) := Rat.intCast_le_intCast.2 (by have := (h1 d).1; omega)
      refine lt_of_lt_of_le b1 (le_trans b2 ?_)
      rcases (h2 d).2 with h3 | ⟨_, h3⟩
      · have b3 : ((f d + 1 : Int) : Rat) ≤ (((scale (a'.hi d)).ceil : Int) : Rat) := Rat.intCast_le_intCast.2 (by omega)
        have b4 := Rat.ceil_lt (x := scale (a'.hi d))
        exact le_trans b3 (le_of_lt b4)
      · have b3 := Rat.floor_le (scale (a'.lo d))
        rw [h3, Rat.intCast_add]
        exact add_le_add (le_trans b3 (hva d)) (le_refl _)
    exact ⟨b, rfl, fun d => ⟨key b bv hbv hc' hc d, key bv b hvb hc hc' d⟩⟩

omit [Preorder T] in
/-- `build` does not leave the arrays, if the primitives occupy no more than eight different cells per primitive.
Missing: more cells.  The keys inserted by `resize` keep their numbers even if the larger table refuses them, so that
the numbers of the keys inserted after them are not bounded by the number of slots. -/
theorem spatial_hash_safe_partial (hp : ∀ n, n ≤ p.next2pow n) (hh : NoHole p scale prims)
    (hv : ∀ b ∈ prims, scale (b.lo 0) ≤ scale (b.hi 0)) {D : List Key} (hD : ∀ i, ∀ k ∈ cellsOf scale prims i, k ∈ D) (hl : D.length ≤ 8 * prims.length)
    {r : Outcome (Hash T)} (h : Build p scale small prims old r) : r ≠ .bad := by
  have tab : ∀ {cs : List (List Key)} {act : Nat → Key} {ind : Nat → Nat} {r : Outcome Table}, prims ≠ [] → prims.mapM (cells scale) = some cs →
      Filled p cs.flatten 0 prims.length ⟨p.cfg prims.length, 0, act, [], (p.cfg prims.length).empty 0 act ind⟩ r → r ≠ .bad := by
    intro cs act ind r hne hc hf
    obtain ⟨m1, m2⟩ := mapM_cells hc
    have hn : prims.length ≠ 0 := fun e => hne (List.length_eq_zero_iff.1 e)
    refine filled_safe (flatten_hole hh m2) (D := D) ?_ hp hn hl hf (tinv_new (nb_ne_zero hp hn) act ind) (.inl rfl)
    intro k hk
    obtain ⟨l, hl, hkl⟩ := List.mem_flatten.1 hk
    obtain ⟨i, hi, rfl⟩ := List.getElem_of_mem hl
    refine hD i k ?_
    rw [← m2, List.getD_eq_getElem?_getD, List.getElem?_eq_getElem hi]
    exact hkl
  cases h with
  | side => intro e; cases e
  | none => intro e; cases e
  | endless _ _ h =>
    obtain ⟨ls, e⟩ := mapM_some (f := cells scale) (ks := prims) fun b hb => cells_some (hv b hb)
    rw [h] at e
    cases e
  | @table cs act ind r _ h2 h3 h4 h5 =>
    cases r with
    | throws => intro e; cases e
    | bad => exact absurd rfl (tab h2 h3 h4)
    | ok tb => exact absurd rfl (h5 tb)
  | @count cs act ind tb sched _ h2 h3 h4 h5 h6 =>
    obtain ⟨m1, m2⟩ := mapM_cells h3
    have hn : prims.length ≠ 0 := fun e => h2 (List.length_eq_zero_iff.1 e)
    obtain ⟨t1, t2, t3⟩ := filled_ok (flatten_hole hh m2) hp hn h4 (tinv_new (nb_ne_zero hp hn) act ind) tb rfl
    obtain ⟨counts', c1, _⟩ := lists_spec (T := T) m1 (flatten_hole hh m2) t1 t2 t3 h5
    rw [h6] at c1
    cases c1
  | @place cs act ind tb sched sched' counts offsets indices r _ h2 h3 h4 h5 h6 h7 h8 h9 h10 =>
    obtain ⟨m1, m2⟩ := mapM_cells h3
    have hn : prims.length ≠ 0 := fun e => h2 (List.length_eq_zero_iff.1 e)
    obtain ⟨t1, t2, t3⟩ := filled_ok (flatten_hole hh m2) hp hn h4 (tinv_new (nb_ne_zero hp hn) act ind) tb rfl
    obtain ⟨counts', c1, c2⟩ := lists_spec (T := T) m1 (flatten_hole hh m2) t1 t2 t3 h5
    rw [h6] at c1
    cases c1
    obtain ⟨st, s1, _⟩ := c2 offsets indices sched' h7 h8 h9
    rw [h10] at s1
    subst s1
    intro e
    cases e

/-! ## What is missed -/

section
private def par : Params := { hf := fun _ _ => 0, hole := [2147483647], width := 32, next2pow := fun n => n }
private def par2 : Params := { par with hole := [2147483647, 2147483647] }
private def one (a b : Rat) : Box 1 Rat := ⟨fun _ => a, fun _ => b⟩
private def two (a b c d : Rat) : Box 2 Rat := ⟨fun i => if i = 0 then a else c, fun i => if i = 0 then b else d⟩
private def blank : Hash Rat := ⟨id, ⟨par.cfg 0, 0, fun _ => [], [], (par.cfg 0).empty 0 (fun _ => []) fun _ => 0⟩, [], []⟩

/-- A build that needs no retry. -/
private theorem easy {m : Nat} {p : Params} {prims : List (Box (m + 1) Rat)} (hp : ∀ n, n ≤ p.next2pow n) (hne : prims ≠ []) (hh : NoHole p id prims)
    {cs : List (List Key)} (hc : prims.mapM (cells id) = some cs) (sched : List (Nat × Bool)) (hx : ∀ x ∈ sched, x.1 < cs.flatten.length)
    (hr : (Bht.run (p.cfg prims.length) (task 0 (fun _ => []) cs.flatten) ((p.cfg prims.length).empty 0 (fun _ => []) fun _ => 0) sched).any
      (fun s => s.success && (List.range cs.flatten.length).all fun t => (Bht.result s t).isSome) = true) (old : Hash Rat) :
    ∃ t, Build p id false prims old (.ok t) := by
  cases e : Bht.run (p.cfg prims.length) (task 0 (fun _ => []) cs.flatten) ((p.cfg prims.length).empty 0 (fun _ => []) fun _ => 0) sched with
  | none => rw [e] at hr; cases hr
  | some s =>
    rw [e] at hr
    simp only [Option.any_some, Bool.and_eq_true, List.all_eq_true, List.mem_range] at hr
    refine build_exists hp hne hh hc (tb := Table.grow ⟨p.cfg prims.length, 0, fun _ => [], [], _⟩ cs.flatten s) (act := fun _ => []) (ind := fun _ => 0) (.ok ?_ hr.1)
    refine ⟨sched, fun x h => ⟨Nat.zero_le _, by simpa using hx x h⟩, e, fun s' es t _ ht => ?_⟩
    cases es
    have := hr.2 t (by simpa using ht)
    exact fun hn => by rw [hn] at this; cases this

private theorem nil_of_count {l : List Nat} (h : ∀ i, l.count i = 0) : l = [] := by
  cases l with
  | nil => rfl
  | cons x l => have := h x; simp at this

private theorem cellsOf_one {m : Nat} {b : Box (m + 1) Rat} {ks : List Key} (h : cells id b = some ks) (i : Nat) :
    cellsOf id [b] i = if i = 0 then ks else [] := by
  cases i <;> simp [cellsOf, h]

private theorem noHole_one {m : Nat} {p : Params} {b : Box (m + 1) Rat} {ks : List Key} (h : cells id b = some ks) (hn : p.hole ∉ ks) : NoHole p id [b] := by
  intro i
  rw [cellsOf_one h]
  split
  · exact hn
  · simp

private theorem le_par : ∀ n, n ≤ par.next2pow n := fun n => Nat.le_refl n
private theorem le_par2 : ∀ n, n ≤ par2.next2pow n := fun n => Nat.le_refl n

/-- One call of `insert` on its own. -/
private def alone (t n : Nat) : List (Nat × Bool) := List.replicate n (t, false)

private theorem c01 : cells id (one 0 1) = some [[0]] := by decide +kernel
private theorem c12 : cells id (one 1 2) = some [[1]] := by decide +kernel
private theorem c02 : cells id (one 0 2) = some [[0], [1]] := by decide +kernel

private theorem built01 (old : Hash Rat) : ∃ t, Build par id false [one 0 1] old (.ok t) :=
  easy le_par (by simp) (noHole_one c01 (by decide)) (cs := [[[0]]]) (by simp [c01]) (alone 0 7) (by decide) (by decide +kernel) old

/-- Two boxes that touch in a plane between two cells: with side length 1, the query box [1, 2] does not find the
primitive [0, 1]. -/
theorem spatial_hash_touching_violated (old : Hash Rat) : Meet (one 0 1) (one 1 2) ∧ (∃ t, Build par id false [one 0 1] old (.ok t)) ∧
    ∀ t, Build par id false [one 0 1] old (.ok t) → iterNeighbors t (one 1 2) = some [] := by
  refine ⟨⟨fun _ => 1, by decide +kernel⟩, built01 old, fun t h => ?_⟩
  obtain ⟨found, h1, h2⟩ := spatial_hash_reports le_par (by simp) (noHole_one c01 (by decide)) h c12 (by decide)
  rw [h1, nil_of_count (l := found) fun i => ?_]
  rw [h2, cellsOf_one c01]
  split <;> decide

/-- The point 1 does not find the primitive [0, 1]. -/
theorem spatial_hash_point_violated (old : Hash Rat) : (one 0 1).lo 0 ≤ 1 ∧ 1 ≤ (one 0 1).hi 0 ∧ (∃ t, Build par id false [one 0 1] old (.ok t)) ∧
    ∀ t, Build par id false [one 0 1] old (.ok t) → iterPoint t (fun _ : Fin 1 => (1 : Rat)) = some [] := by
  refine ⟨by decide +kernel, by decide +kernel, built01 old, fun t h => ?_⟩
  have e : (List.ofFn fun d : Fin 1 => (id (1 : Rat)).floor) = [1] := by decide +kernel
  obtain ⟨found, h1, _, h2⟩ := spatial_hash_point le_par (by simp) (noHole_one c01 (by decide)) h (fun _ => (1 : Rat)) (by rw [e]; decide)
  rw [h1]
  cases found with
  | nil => rfl
  | cons x l =>
    have := (h2 x).1 List.mem_cons_self
    rw [cellsOf_one c01, e] at this
    split at this
    · exact absurd this (by decide)
    · cases this

private theorem cflat : cells id (two 0 0 0 1) = some [] := by decide +kernel
private theorem cflat' : cells id (two 0 1 0 0) = some [[0, 0]] := by decide +kernel
private theorem cwide : cells id (two (-1) 1 (-1) 1) = some [[-1, -1], [-1, 0], [0, -1], [0, 0]] := by decide +kernel

/-- A primitive that is flat in the first dimension and lies in a plane between two cells has no cell and is not found
by a box that has it in its middle. -/
theorem spatial_hash_flat_violated (old : Hash Rat) :
    (∀ d, (two (-1) 1 (-1) 1).lo d ≤ (two 0 0 0 1).lo d ∧ (two 0 0 0 1).lo d ≤ (two 0 0 0 1).hi d ∧ (two 0 0 0 1).hi d ≤ (two (-1) 1 (-1) 1).hi d) ∧
    (∃ t, Build par2 id false [two 0 0 0 1] old (.ok t)) ∧
    ∀ t, Build par2 id false [two 0 0 0 1] old (.ok t) → iterNeighbors t (two (-1) 1 (-1) 1) = some [] := by
  refine ⟨by decide +kernel, easy le_par2 (by simp) (noHole_one cflat (by decide)) (cs := [[]]) (by simp [cflat]) [] (by simp) (by decide +kernel) old, fun t h => ?_⟩
  obtain ⟨found, h1, h2⟩ := spatial_hash_reports le_par2 (by simp) (noHole_one cflat (by decide)) h cwide (by decide)
  rw [h1, nil_of_count (l := found) fun i => ?_]
  rw [h2, cellsOf_one cflat]
  split <;> decide

/-- A primitive that is flat in the second dimension is found: an empty extent acts as one there. -/
theorem spatial_hash_flat_second (old : Hash Rat) : (∃ t, Build par2 id false [two 0 1 0 0] old (.ok t)) ∧
    ∀ t, Build par2 id false [two 0 1 0 0] old (.ok t) → ∃ found, iterNeighbors t (two (-1) 1 (-1) 1) = some found ∧ found.count 0 = 1 := by
  refine ⟨easy le_par2 (by simp) (noHole_one cflat' (by decide)) (cs := [[[0, 0]]]) (by simp [cflat']) (alone 0 7) (by decide) (by decide +kernel) old, fun t h => ?_⟩
  obtain ⟨found, h1, h2⟩ := spatial_hash_reports le_par2 (by simp) (noHole_one cflat' (by decide)) h cwide (by decide)
  refine ⟨found, h1, ?_⟩
  rw [h2, cellsOf_one cflat']
  decide

/-- A primitive is reported once for every common cell, not once. -/
theorem spatial_hash_once_violated (old : Hash Rat) : (∃ t, Build par id false [one 0 2] old (.ok t)) ∧
    ∀ t, Build par id false [one 0 2] old (.ok t) → ∃ found, iterNeighbors t (one 0 2) = some found ∧ found.count 0 = 2 := by
  refine ⟨easy le_par (by simp) (noHole_one c02 (by decide)) (cs := [[[0], [1]]]) (by simp [c02]) (alone 0 7 ++ alone 1 8) (by decide) (by decide +kernel) old, fun t h => ?_⟩
  obtain ⟨found, h1, h2⟩ := spatial_hash_reports le_par (by simp) (noHole_one c02 (by decide)) h c02 (by decide)
  refine ⟨found, h1, ?_⟩
  rw [h2, cellsOf_one c02]
  decide

/-- After a build without primitives, queries still report the primitives of the build before. -/
theorem spatial_hash_empty_violated : ∃ old t : Hash Rat, Build par id false ([] : List (Box 1 Rat)) old (.ok t) ∧
    ∃ found, iterNeighbors t (one 0 1) = some found ∧ 0 ∈ found := by
  obtain ⟨old, h⟩ := built01 blank
  obtain ⟨found, h1, h2⟩ := spatial_hash_reports le_par (by simp) (noHole_one c01 (by decide)) h c01 (by decide)
  have e := (build_ok le_par (by simp) (noHole_one c01 (by decide)) h).1
  refine ⟨old, _, .none rfl rfl, found, ?_, List.count_pos_iff.1 ?_⟩
  · rw [← e]; exact h1
  · rw [h2, cellsOf_one c01]
    decide

/-- The hypotheses of `spatial_hash_finds_partial` are met: the query box [1/2, 2] finds the primitive [0, 1]. -/
example : ∃ t, Build par id false [one 0 1] blank (.ok t) ∧ ∃ found, iterNeighbors t (one (1/2) 2) = some found ∧ 0 ∈ found := by
  obtain ⟨t, h⟩ := built01 blank
  refine ⟨t, h, spatial_hash_finds_partial (ks := [[0], [1]]) (x := fun _ => 1/2) (y := fun _ => 1) le_par monotone_id (noHole_one c01 (by decide)) h (i := 0) rfl
    (by decide +kernel) (by decide) (by decide +kernel) (by decide +kernel) ?_⟩
  intro d z h1 h2
  rw [← h2] at h1
  exact absurd h1 (by decide +kernel)

/-- The hypotheses of `spatial_hash_safe_partial` are met. -/
example {r : Outcome (Hash Rat)} (h : Build par id false [one 0 2] blank r) : r ≠ .bad :=
  spatial_hash_safe_partial le_par (noHole_one c02 (by decide)) (by decide +kernel) (D := [[0], [1]])
    (fun i k hk => by rw [cellsOf_one c02] at hk; split at hk <;> simp_all) (by decide) h

end

end Verif.SpatialHash
