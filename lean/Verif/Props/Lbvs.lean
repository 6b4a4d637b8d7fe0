import Verif.Proof.Lbvs

/-! C95: sorted bounding volumes. -/
namespace Verif.Lbvs
open Verif.Shapes Verif.Volumes

variable {n : ℕ}

/-- The sequential merge sort can be used for `sorter`. -/
theorem seqSort_sorts : Sorts seqSort := seqSort_sorts'

/-- `build` does not read outside of the arrays and stores every box once, in order. -/
theorem build_holds {sorter : List (ℝ × ℕ) → List (ℝ × ℕ)} (hs : Sorts sorter) (big : ℝ) (prims : List (Cuboid (n + 1))) (axis : ℤ) :
    ∃ l, build sorter big prims axis = some l ∧ Holds l prims ∧ ((0 ≤ axis ∧ axis < n + 1) → (l.axis : ℤ) = axis) := by
  have hk : ∀ p ∈ prims.zipIdx.map (fun p => (p.1.min (pickAxis big prims axis), p.2)), ∃ b, prims[p.2]? = some b ∧ b.min (pickAxis big prims axis) = p.1 := by
    intro p hp
    obtain ⟨q, hq, rfl⟩ := List.mem_map.1 hp
    exact ⟨q.1, List.mem_zipIdx_iff_getElem?.1 hq, rfl⟩
  have hp : ((prims.zipIdx.map (fun p => (p.1.min (pickAxis big prims axis), p.2))).map Prod.snd).Perm (List.range prims.length) := by
    rw [List.map_map]
    have : (Prod.snd ∘ fun p : Cuboid (n + 1) × ℕ => (p.1.min (pickAxis big prims axis), p.2)) = Prod.snd := rfl
    rw [this, List.zipIdx_map_snd, List.range_eq_range']
  obtain ⟨bvs, h1, h2⟩ := holds_of_sorted hs hk hp
  refine ⟨_, by rw [build]; simp only [h1, Option.map_some], h2, fun ha => ?_⟩
  show ((pickAxis big prims axis : Fin (n + 1)) : ℤ) = axis
  rw [pickAxis, dif_pos ha]
  simp only [Int.toNat_of_nonneg ha.1]

/-- Without a valid axis, the first one of those along which the boxes reach farthest is taken. -/
theorem build_axis {sorter : List (ℝ × ℕ) → List (ℝ × ℕ)} {big : ℝ} {prims : List (Cuboid (n + 1))} {axis : ℤ} {l : LBvs n} (h : build sorter big prims axis = some l)
    (hne : prims ≠ []) (hbig : ∀ b ∈ prims, ∀ d, b.min d ≤ big ∧ -big ≤ b.max d) (ha : ¬ (0 ≤ axis ∧ axis < n + 1)) :
    ∃ e, Extent prims l.axis e ∧ (∀ d e', Extent prims d e' → e' ≤ e) ∧ ∀ d e', d < l.axis → Extent prims d e' → e' < e := by
  have hax : l.axis = longest (Lbvs.getBox big prims) := by
    rw [build] at h
    simp only [Option.map_eq_some_iff] at h
    obtain ⟨_, -, rfl⟩ := h
    simp only [pickAxis, dif_neg ha]
  obtain ⟨h1, h2⟩ := longest_spec (Lbvs.getBox big prims)
  rw [← hax] at h1 h2
  refine ⟨_, extent_getBox hne hbig l.axis, fun d e' he => ?_, fun d e' hd he => ?_⟩
  · rw [he.unique (extent_getBox hne hbig d)]; exact h1 d
  · rw [he.unique (extent_getBox hne hbig d)]; exact h2 d hd

/-- `refit` with as many boxes: the same promise for the new boxes, along the same axis. -/
theorem refit_holds {sorter : List (ℝ × ℕ) → List (ℝ × ℕ)} (hs : Sorts sorter) {l : LBvs n} {old : List (Cuboid (n + 1))} (h : Holds l old) (prims : List (Cuboid (n + 1)))
    (hl : prims.length = old.length) : ∃ l', refit sorter l prims = some (.done l') ∧ Holds l' prims ∧ l'.axis = l.axis := by
  have hlt : ∀ src ∈ l.auxIndices, src < prims.length := fun src hsrc => by
    rw [hl]; exact List.mem_range.1 (h.perm.mem_iff.1 hsrc)
  obtain ⟨pairs, hpairs⟩ := mapM_exists (f := fun src => prims[src]?.map fun b => (b.min l.axis, src)) (l := l.auxIndices) (fun src hsrc =>
    ⟨_, by rw [List.getElem?_eq_getElem (hlt src hsrc)]; rfl⟩)
  have hp := (mapM_iff _ _ _).1 hpairs
  have hk : ∀ p ∈ pairs, ∃ b, prims[p.2]? = some b ∧ b.min l.axis = p.1 := by
    intro p hpm
    have : some p ∈ pairs.map some := List.mem_map_of_mem hpm
    rw [hp] at this
    obtain ⟨src, -, hsrc⟩ := List.mem_map.1 this
    obtain ⟨b, hb, rfl⟩ := Option.map_eq_some_iff.1 hsrc
    exact ⟨b, hb, rfl⟩
  have hsnd : pairs.map Prod.snd = l.auxIndices := by
    refine List.map_injective_iff.2 (Option.some_injective _) ?_
    have : (pairs.map Prod.snd).map some = (pairs.map some).map (Option.map Prod.snd) := by simp
    rw [this, hp, List.map_map]
    refine List.map_congr_left fun src hsrc => ?_
    simp [List.getElem?_eq_getElem (hlt src hsrc)]
  obtain ⟨bvs, h1, h2⟩ := holds_of_sorted hs hk (by rw [hsnd, hl]; exact h.perm)
  refine ⟨_, ?_, h2, rfl⟩
  rw [refit, if_neg (by rw [h.length.2]; exact not_not.2 hl), hpairs]
  simp only [Option.bind_some, h1, Option.map_some]

theorem refit_mismatch (sorter : List (ℝ × ℕ) → List (ℝ × ℕ)) {l : LBvs n} {old : List (Cuboid (n + 1))} (h : Holds l old) {prims : List (Cuboid (n + 1))}
    (hl : prims.length ≠ old.length) : refit sorter l prims = some .mismatch := by
  rw [refit, if_pos (by rw [h.length.2]; exact hl)]

/-- `locate` is the last of the boxes whose lower end is not above the value, minus one if there is none. -/
theorem locate_exact {l : LBvs n} {prims : List (Cuboid (n + 1))} (h : Holds l prims) (v : ℝ) :
    ∃ r, locate l v = some r ∧ -1 ≤ r ∧ r < prims.length ∧ ∀ (i : ℕ) (b : Cuboid (n + 1)), l.bvs[i]? = some b → (b.min l.axis ≤ v ↔ (i : ℤ) ≤ r) := by
  obtain ⟨r, h1, h2, h3, h4⟩ := locate_spec h.sorted v
  exact ⟨r, h1, h2, by rw [← h.length.2]; exact h3, h4⟩

/-- `iter_neighbors` calls the function exactly once for every box that touches the given one. -/
theorem iter_exact {l : LBvs n} {prims : List (Cuboid (n + 1))} (h : Holds l prims) (hv : ∀ b ∈ prims, Valid b) {bv : Cuboid (n + 1)} (hb' : Valid bv) :
    ∃ calls, iterNeighbors l bv = some calls ∧ calls.Nodup ∧ ∀ i, i ∈ calls ↔ ∃ b, prims[i]? = some b ∧ Touch b bv := by
  obtain ⟨ed, calls, h1, h2, h3, h4⟩ := scan_spec h bv 0
  refine ⟨calls, by rw [iterNeighbors, h1]; exact h2, (h3.nodup (by simpa using h.nodup)), fun i => ?_⟩
  rw [h4]
  constructor
  · rintro ⟨k, -, -, b, hb, ho⟩
    exact ⟨b, hb, (touch_iff (hv b (List.mem_of_getElem? hb)) hb').1 ho⟩
  · rintro ⟨b, hb, ht⟩
    obtain ⟨hi, -⟩ := List.getElem?_eq_some_iff.1 hb
    obtain ⟨k, hk⟩ := List.getElem?_of_mem (h.perm.mem_iff.2 (List.mem_range.2 hi))
    exact ⟨k, Nat.zero_le _, hk, b, hb, (touch_iff (hv b (List.mem_of_getElem? hb)) hb').2 ht⟩

/-- `self_iter_neighbors` over all nodes finds every pair of boxes that touch, once, in one of the two orders. -/
theorem self_iter_exact {l : LBvs n} {prims : List (Cuboid (n + 1))} (h : Holds l prims) (hv : ∀ b ∈ prims, Valid b) :
    ∃ calls : ℕ → List ℕ, (∀ k < prims.length, selfIterNeighbors l k = some (calls k)) ∧
      ∃ pairs : List (ℕ × ℕ), pairs = (List.range prims.length).flatMap (fun k => (calls k).map fun j => (l.auxIndices.getD k 0, j)) ∧
        pairs.Nodup ∧ (∀ i j, (i, j) ∈ pairs → i ≠ j ∧ (j, i) ∉ pairs) ∧
          ∀ i j a b, i ≠ j → prims[i]? = some a → prims[j]? = some b → (Touch a b ↔ (i, j) ∈ pairs ∨ (j, i) ∈ pairs) := by
  have hlen := h.length.1
  -- the calls of a node
  have hcall : ∀ k, ∃ calls, k < prims.length → selfIterNeighbors l k = some calls ∧ calls.Nodup ∧
      ∀ p, p ∈ calls ↔ ∃ j, k + 1 ≤ j ∧ l.auxIndices[j]? = some p ∧ ∃ a b, prims[l.auxIndices.getD k 0]? = some a ∧ prims[p]? = some b ∧ Touch a b := by
    intro k
    by_cases hk : k < prims.length
    · have hka : l.auxIndices[k]? = some (l.auxIndices.getD k 0) := by
        rw [List.getD_eq_getElem _ _ (by omega), List.getElem?_eq_getElem (by omega)]
      have hkp : l.auxIndices.getD k 0 < prims.length := List.mem_range.1 (h.perm.mem_iff.1 (List.mem_of_getElem? hka))
      have hb0 : prims[l.auxIndices.getD k 0]? = some prims[l.auxIndices.getD k 0] := List.getElem?_eq_getElem hkp
      obtain ⟨ed, calls, h1, h2, h3, h4⟩ := scan_spec h prims[l.auxIndices.getD k 0] (k + 1)
      refine ⟨calls, fun _ => ⟨?_, h3.nodup (h.nodup.sublist (List.drop_sublist _ _)), fun p => ?_⟩⟩
      · rw [selfIterNeighbors, h.getBox hka, hb0]
        simp only [Option.bind_some, h1]
        exact_mod_cast h2
      · rw [h4]
        have hva : Valid prims[l.auxIndices.getD k 0] := hv _ (List.getElem_mem _)
        constructor
        · rintro ⟨j, a, b, node, c, d⟩
          exact ⟨j, a, b, _, node, hb0, c, touch_comm.1 ((touch_iff (hv node (List.mem_of_getElem? c)) hva).1 d)⟩
        · rintro ⟨j, a, b, x, y, c, d, e⟩
          rw [hb0] at c
          rw [← Option.some.inj c] at e
          exact ⟨j, a, b, y, d, (touch_iff (hv y (List.mem_of_getElem? d)) hva).2 (touch_comm.1 e)⟩
    · exact ⟨[], fun h => absurd h hk⟩
  choose calls hcalls using hcall
  -- positions and indices
  have hpos : ∀ k, k < prims.length → l.auxIndices[k]? = some (l.auxIndices.getD k 0) := fun k hk => by
    rw [List.getD_eq_getElem _ _ (by omega), List.getElem?_eq_getElem (by omega)]
  have hinj : ∀ {i j p : ℕ}, l.auxIndices[i]? = some p → l.auxIndices[j]? = some p → i = j := by
    intro i j p hi hj
    obtain ⟨hi', e1⟩ := List.getElem?_eq_some_iff.1 hi
    obtain ⟨hj', e2⟩ := List.getElem?_eq_some_iff.1 hj
    exact (List.Nodup.getElem_inj_iff h.nodup).1 (e1.trans e2.symm)
  have hmem : ∀ i j, (i, j) ∈ ((List.range prims.length).flatMap fun k => (calls k).map fun j => (l.auxIndices.getD k 0, j)) ↔
      ∃ k k' : ℕ, k < k' ∧ l.auxIndices[k]? = some i ∧ l.auxIndices[k']? = some j ∧ ∃ a b, prims[i]? = some a ∧ prims[j]? = some b ∧ Touch a b := by
    intro i j
    simp only [List.mem_flatMap, List.mem_range, List.mem_map, Prod.mk.injEq]
    constructor
    · rintro ⟨k, hk, j', hj, rfl, rfl⟩
      obtain ⟨k', h1, h2, h3⟩ := ((hcalls k hk).2.2 _).1 hj
      exact ⟨k, k', h1, hpos k hk, h2, h3⟩
    · rintro ⟨k, k', h1, h2, h3, h4⟩
      have hk : k < prims.length := by
        obtain ⟨h', -⟩ := List.getElem?_eq_some_iff.1 h2; omega
      have e := hpos k hk
      rw [h2] at e
      have e := Option.some.inj e
      refine ⟨k, hk, j, ((hcalls k hk).2.2 _).2 ⟨k', h1, h3, ?_⟩, e.symm, rfl⟩
      rw [← e]; exact h4
  refine ⟨calls, fun k hk => (hcalls k hk).1, _, rfl, ?_, ?_, ?_⟩
  · refine List.nodup_flatMap.2 ⟨fun k hk => ?_, ?_⟩
    · exact ((hcalls k (List.mem_range.1 hk)).2.1).map fun a b hab => (Prod.mk.inj hab).2
    · refine List.Pairwise.imp_of_mem ?_ List.nodup_range
      intro k k' hk hk' hne
      simp only [Function.onFun, List.disjoint_left, List.mem_map]
      rintro ⟨i, j⟩ ⟨a, -, ha⟩ ⟨b, -, hb⟩
      have e1 := (Prod.mk.inj ha).1
      have e2 := (Prod.mk.inj hb).1
      have p1 := hpos k (List.mem_range.1 hk)
      have p2 := hpos k' (List.mem_range.1 hk')
      rw [e1] at p1
      rw [e2] at p2
      exact hne (hinj p1 p2)
  · intro i j hij
    obtain ⟨k, k', h1, h2, h3, -⟩ := (hmem i j).1 hij
    refine ⟨?_, fun hji => ?_⟩
    · rintro rfl
      have := hinj h2 h3
      omega
    · obtain ⟨m, m', g1, g2, g3, -⟩ := (hmem j i).1 hji
      have := hinj h2 g3
      have := hinj h3 g2
      omega
  · intro i j a b hij ha hb
    rw [hmem, hmem]
    constructor
    · intro ht
      obtain ⟨hi, -⟩ := List.getElem?_eq_some_iff.1 ha
      obtain ⟨hj, -⟩ := List.getElem?_eq_some_iff.1 hb
      obtain ⟨k, hk⟩ := List.getElem?_of_mem (h.perm.mem_iff.2 (List.mem_range.2 hi))
      obtain ⟨k', hk'⟩ := List.getElem?_of_mem (h.perm.mem_iff.2 (List.mem_range.2 hj))
      rcases Nat.lt_trichotomy k k' with hlt | heq | hgt
      · exact Or.inl ⟨k, k', hlt, hk, hk', a, b, ha, hb, ht⟩
      · subst heq
        rw [hk] at hk'
        exact absurd (Option.some.inj hk') hij
      · exact Or.inr ⟨k', k, hgt, hk', hk, b, a, hb, ha, touch_comm.1 ht⟩
    · rintro (⟨_, _, -, -, -, a', b', ha', hb', ht⟩ | ⟨_, _, -, -, -, b', a', hb', ha', ht⟩)
      · rw [ha] at ha'; rw [hb] at hb'
        rw [Option.some.inj ha', Option.some.inj hb']; exact ht
      · rw [ha] at ha'; rw [hb] at hb'
        rw [Option.some.inj ha', Option.some.inj hb']; exact touch_comm.1 ht

/-- Boxes along a line: the promises are not about empty lists. -/
def three : List (Cuboid 1) := [⟨![2], ![5]⟩, ⟨![0], ![3]⟩, ⟨![7], ![8]⟩]

example : (∀ b ∈ three, Valid b) ∧ ∃ l, build seqSort 100 three (-1) = some l ∧ Holds l three ∧ ∃ calls, iterNeighbors l ⟨![1], ![2]⟩ = some calls ∧ 0 ∈ calls ∧ 1 ∈ calls ∧ 2 ∉ calls := by
  have hv : ∀ b ∈ three, Valid b := by
    intro b hb i
    fin_cases i
    simp only [three, List.mem_cons, List.not_mem_nil, or_false] at hb
    rcases hb with rfl | rfl | rfl <;> norm_num
  obtain ⟨l, h1, h2, -⟩ := build_holds seqSort_sorts 100 three (-1)
  obtain ⟨calls, c1, -, c3⟩ := iter_exact h2 hv (bv := ⟨![1], ![2]⟩) (by intro i; fin_cases i; norm_num)
  refine ⟨hv, l, h1, h2, calls, c1, (c3 0).2 ⟨_, rfl, ![2], ?_, ?_⟩, (c3 1).2 ⟨_, rfl, ![1], ?_, ?_⟩, fun h => ?_⟩
  iterate 4 (intro i; fin_cases i; norm_num)
  obtain ⟨b, hb, x, hx, hy⟩ := (c3 2).1 h
  obtain rfl : (⟨![7], ![8]⟩ : Cuboid 1) = b := Option.some.inj hb
  have := (hx 0).1
  have := (hy 0).2
  norm_num at *
  linarith

end Verif.Lbvs
