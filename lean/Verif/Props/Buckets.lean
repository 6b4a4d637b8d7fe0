import Verif.Proof.Buckets
import Mathlib.Algebra.Order.Ring.Abs
import Mathlib.Data.Rat.Floor
import Mathlib.Tactic.NormNum

/-! C97: sparsity of particles, and their buckets. -/
namespace Verif.Buckets

variable {K : Type} [Field K] [LinearOrder K] [IsStrictOrderedRing K] [FloorRing K] {d : Nat}

/-- The table holds every block in which there is a particle once, besides what it held before. -/
theorem sparsity_exact (dx disp : K) {blockLen : Int} (hb : 0 < blockLen) (offset : Int) (x : Nat → Fin d → K) (L : List (Key d)) {n : Nat} {o : List Nat} (ho : o.Perm (List.range n)) :
    (L.Nodup → (computeSparsity dx disp blockLen offset x L o).Nodup) ∧ L <+: computeSparsity dx disp blockLen offset x L o ∧
    ∀ k, k ∈ computeSparsity dx disp blockLen offset x L o ↔ k ∈ L ∨ ∃ i < n, ∃ c, InCell dx disp (x i) (fun a => c a - offset) ∧ InBlock blockLen c k := by
  have h := adds_foldl (fun L i => insert L (blockId blockLen (coord dx disp offset (x i)))) (fun i k => k = blockId blockLen (coord dx disp offset (x i))) (fun L i => adds_insert L _) o L
  refine ⟨h.nodup, h.pre, fun k => ?_⟩
  rw [computeSparsity, h.mem]
  refine or_congr_right ⟨?_, ?_⟩
  · rintro ⟨i, hi, rfl⟩
    refine ⟨i, List.mem_range.1 (ho.mem_iff.1 hi), coord dx disp offset (x i), ?_, blockId_spec hb _⟩
    rw [inCell_iff]
    funext a
    simp [coord]
  · rintro ⟨i, hi, c, h1, h2⟩
    refine ⟨i, ho.mem_iff.2 (List.mem_range.2 hi), ?_⟩
    have hc : c = coord dx disp offset (x i) := by
      rw [inCell_iff] at h1
      funext a
      have := congrFun h1 a
      simp only [coord, add_zero] at this ⊢
      omega
    subst hc
    exact inBlock_unique hb h2 (blockId_spec hb _)

/-- Enlarging adds the keys of the box around every key, in space and in the plane; those before keep their indices. -/
theorem enlarge_exact (lo hi : Key 3) (L : List (Key 3)) {o : List (Key 3)} (ho : o.Perm L) : (L.Nodup → (o.foldl (enlarge3 lo hi) L).Nodup) ∧ L <+: o.foldl (enlarge3 lo hi) L ∧
    ∀ k, k ∈ o.foldl (enlarge3 lo hi) L ↔ k ∈ L ∨ ∃ k' ∈ L, ∀ a, lo a ≤ k a - k' a ∧ k a - k' a < hi a := by
  have h := adds_foldl (enlarge3 lo hi) (fun k' k => ∃ dx ∈ ints (lo 0) (hi 0), ∃ dy ∈ ints (lo 1) (hi 1), ∃ dz ∈ ints (lo 2) (hi 2), k = k' + ![dx, dy, dz]) (fun L k' =>
    adds_foldl (fun L dx => (ints (lo 1) (hi 1)).foldl (fun L dy => (ints (lo 2) (hi 2)).foldl (fun L dz => insert L (k' + ![dx, dy, dz])) L) L) (fun dx k => ∃ dy ∈ ints (lo 1) (hi 1), ∃ dz ∈ ints (lo 2) (hi 2), k = k' + ![dx, dy, dz]) (fun L dx =>
      adds_foldl (fun L dy => (ints (lo 2) (hi 2)).foldl (fun L dz => insert L (k' + ![dx, dy, dz])) L) (fun dy k => ∃ dz ∈ ints (lo 2) (hi 2), k = k' + ![dx, dy, dz]) (fun L dy =>
        adds_foldl (fun L dz => insert L (k' + ![dx, dy, dz])) (fun dz k => k = k' + ![dx, dy, dz]) (fun L dz => adds_insert L _) _ L) _ L) _ L) o L
  refine ⟨h.nodup, h.pre, fun k => ?_⟩
  rw [h.mem]
  refine or_congr_right ⟨?_, ?_⟩
  · rintro ⟨k', hk, dx, h1, dy, h2, dz, h3, rfl⟩
    rw [mem_ints] at h1 h2 h3
    refine ⟨k', ho.mem_iff.1 hk, fun a => ?_⟩
    fin_cases a <;> simp <;> omega
  · rintro ⟨k', hk, hb⟩
    refine ⟨k', ho.mem_iff.2 hk, k 0 - k' 0, mem_ints.2 (hb 0), k 1 - k' 1, mem_ints.2 (hb 1), k 2 - k' 2, mem_ints.2 (hb 2), ?_⟩
    funext a
    fin_cases a <;> simp

/-- The same in the plane. -/
theorem enlarge_plane (lo hi : Key 2) (L : List (Key 2)) {o : List (Key 2)} (ho : o.Perm L) : (L.Nodup → (o.foldl (enlarge2 lo hi) L).Nodup) ∧ L <+: o.foldl (enlarge2 lo hi) L ∧
    ∀ k, k ∈ o.foldl (enlarge2 lo hi) L ↔ k ∈ L ∨ ∃ k' ∈ L, ∀ a, lo a ≤ k a - k' a ∧ k a - k' a < hi a := by
  have h := adds_foldl (enlarge2 lo hi) (fun k' k => ∃ dx ∈ ints (lo 0) (hi 0), ∃ dy ∈ ints (lo 1) (hi 1), k = k' + ![dx, dy]) (fun L k' =>
    adds_foldl (fun L dx => (ints (lo 1) (hi 1)).foldl (fun L dy => insert L (k' + ![dx, dy])) L) (fun dx k => ∃ dy ∈ ints (lo 1) (hi 1), k = k' + ![dx, dy]) (fun L dx =>
      adds_foldl (fun L dy => insert L (k' + ![dx, dy])) (fun dy k => k = k' + ![dx, dy]) (fun L dy => adds_insert L _) _ L) _ L) o L
  refine ⟨h.nodup, h.pre, fun k => ?_⟩
  rw [h.mem]
  refine or_congr_right ⟨?_, ?_⟩
  · rintro ⟨k', hk, dx, h1, dy, h2, rfl⟩
    rw [mem_ints] at h1 h2
    refine ⟨k', ho.mem_iff.1 hk, fun a => ?_⟩
    fin_cases a <;> simp <;> omega
  · rintro ⟨k', hk, hb⟩
    refine ⟨k', ho.mem_iff.2 hk, k 0 - k' 0, mem_ints.2 (hb 0), k 1 - k' 1, mem_ints.2 (hb 1), ?_⟩
    funext a
    fin_cases a <;> simp

/-- The buckets: their cells are those with particles, each once; the bucket of a cell holds its particles, in the order in which the iterations ran; together they fill the array. -/
theorem build_exact (dx disp : K) {n : Nat} (x : Nat → Fin d → K) (junk : Nat → Nat) {o0 o1 o2 : List Nat} (h0 : o0.Perm (List.range n)) (h1 : o1.Perm (List.range n)) (h2 : o2.Perm (List.range n)) :
    ∃ b, build dx disp n x junk o0 o1 o2 = some b ∧ b.dx = dx ∧ b.table.Nodup ∧ (∀ k, k ∈ b.table ↔ ∃ i < n, InCell dx disp (x i) k) ∧ b.indices.length = n ∧
      (∀ q k, b.table[q]? = some k → ∃ l, bucket b q = l ∧ l.Sublist o2 ∧ ∀ i, i ∈ l ↔ i < n ∧ InCell dx disp (x i) k) ∧
      (List.range b.table.length).flatMap (bucket b) = b.indices ∧ b.indices.Perm (List.range n) ∧ b.offsets b.table.length = n ∧ b.counts b.table.length = 0 := by
  set L := computeSparsity dx disp 1 0 x [] o0 with hL
  set cell : Nat → Key d := fun i => blockId 1 (coord dx disp 0 (x i)) with hcell
  obtain ⟨s1, -, s3⟩ := sparsity_exact dx disp one_pos 0 x [] h0
  have hnd : L.Nodup := s1 List.nodup_nil
  have hcl : ∀ i k, InCell dx disp (x i) k ↔ cell i = k := fun i k => by rw [inCell_iff, hcell]; simp only [blockId_one]
  have hmem : ∀ k, k ∈ L ↔ ∃ i < n, InCell dx disp (x i) k := by
    intro k
    rw [hL, s3]
    simp only [List.not_mem_nil, false_or]
    constructor
    · rintro ⟨i, hi, c, h1, h2⟩
      refine ⟨i, hi, ?_⟩
      have : c = k := inBlock_unique one_pos (c := c) (fun a => by omega) h2
      subst this
      simpa using h1
    · rintro ⟨i, hi, h⟩
      exact ⟨i, hi, k, by simpa using h, fun a => by omega⟩
  have hin : ∀ i < n, cell i ∈ L := fun i hi => (hmem _).2 ⟨i, hi, (hcl i _).2 rfl⟩
  -- the cells as a front
  set f := toFront n L cell with hf
  have hw : Bvtt.WF f := ⟨by simp [hf, toFront], by simp [hf, toFront]⟩
  have hlen : f.prims.length = n := by simp [hf, toFront]
  have hnn : f.numNodes = L.length := by simp [hf, toFront, Bvtt.Front.numNodes]
  have hent : ∀ i < n, f.entry i = (i, L.idxOf (cell i)) := fun i hi => toFront_entry hi
  have hall : ∀ {o : List Nat}, o.Perm (List.range n) → ∀ i ∈ o, i < f.prims.length ∧ (f.entry i).2 < f.numNodes := by
    intro o ho i hi
    have hi := List.mem_range.1 (ho.mem_iff.1 hi)
    rw [hlen, hent i hi, hnn]
    exact ⟨hi, List.idxOf_lt_length_iff.2 (hin i hi)⟩
  have hq : ∀ {o : List Nat}, o.Perm (List.range n) → ∀ i ∈ o, query L (cell i) = f.node i ∧ f.prim i = some i := by
    intro o ho i hi
    have hi' := List.mem_range.1 (ho.mem_iff.1 hi)
    obtain ⟨e1, e2⟩ := Bvtt.node_eq hw (hall ho i hi).1
    rw [e1, e2, hent i hi', query_mem (hin i hi')]
    exact ⟨rfl, rfl⟩
  have hlo : o2.length = n := by rw [h2.length_eq, List.length_range]
  have hcount : count L cell o1 (fun _ => 0) = some (Bvtt.num f o2) := by
    rw [count_eq hnn o1 _ fun i hi => (hq h1 i hi).1, Bvtt.countNodes_eq hw o1 _ (hall h1)]
    congr 1
    funext k
    rw [Nat.zero_add, Bvtt.num, Bvtt.num]
    exact ((h1.trans h2.symm).filter _).length_eq
  obtain ⟨ps, ns, e, l1, l2, hp⟩ := Bvtt.scatter_spec hw (hall h2) (by rw [hlo, hlen]) o2 [] ((List.range n).map junk) ((List.range n).map junk) rfl (by simp [hlen]) (by simp [hlen])
    ⟨fun k j i hi => by simp at hi⟩
  have hdist : distribute L cell (Bvtt.offsets (Bvtt.num f o2)) o2 (fun _ => 0) ((List.range n).map junk) = some ps := by
    rw [distribute_eq hnn _ o2 _ _ ((List.range n).map junk) rfl (hq h2)]
    have : Bvtt.num f [] = fun _ => 0 := by funext k; simp [Bvtt.num]
    rw [this] at e
    rw [e]
    rfl
  set b : IndexBuckets K d := ⟨L, ps, Bvtt.offsets (Bvtt.num f o2), Bvtt.num f o2, dx⟩ with hbdef
  have hbuild : build dx disp n x junk o0 o1 o2 = some b := by
    show (count L cell o1 fun _ => 0).bind _ = _
    rw [hcount]
    show (distribute L cell _ o2 _ _).map _ = _
    rw [hdist]
    rfl
  -- a bucket is what the iterations of its cell wrote
  have hbucket : ∀ q, bucket b q = o2.filter fun i => (f.entry i).2 == q := by
    intro q
    refine List.ext_getElem? fun j => ?_
    by_cases hj : j < Bvtt.num f o2 q
    · obtain ⟨i, hi⟩ : ∃ i, (o2.filter fun i => (f.entry i).2 == q)[j]? = some i := ⟨_, List.getElem?_eq_getElem hj⟩
      have ha := (hp.at_ q j i hi).1
      have hio : i ∈ o2 := (List.mem_filter.1 (List.mem_of_getElem? hi)).1
      rw [hent i (List.mem_range.1 (h2.mem_iff.1 hio))] at ha
      rw [hi, bucket, List.getElem?_map, List.getElem?_eq_getElem (by simpa [hbdef] using hj), List.getElem_range, Option.map_some, List.getD_eq_getElem?_getD]
      show some ((ps[Bvtt.offsets (Bvtt.num f o2) q + j]?).getD 0) = _
      rw [ha]
      rfl
    · rw [List.getElem?_eq_none (by simpa [bucket, hbdef] using hj), List.getElem?_eq_none (by simpa [Bvtt.num] using hj)]
  have htot : Bvtt.offsets (Bvtt.num f o2) L.length = n := by rw [← hnn, Bvtt.offsets_total f o2 _ fun i hi => (hall h2 i hi).2, hlo]
  have hflat : (List.range L.length).flatMap (bucket b) = ps := by
    have ht := Bvtt.take_flat (bucket b) ps L.length (by
      intro q _ j i hi
      rw [hbucket] at hi
      have hio : i ∈ o2 := (List.mem_filter.1 (List.mem_of_getElem? hi)).1
      have ha := (hp.at_ q j i hi).1
      rw [hent i (List.mem_range.1 (h2.mem_iff.1 hio))] at ha
      have : (fun k => (bucket b k).length) = Bvtt.num f o2 := by funext k; rw [hbucket, Bvtt.num]
      rw [this]
      exact ha)
    have : (fun k => (bucket b k).length) = Bvtt.num f o2 := by funext k; rw [hbucket, Bvtt.num]
    rw [this, htot] at ht
    rw [← ht, List.take_of_length_le (by rw [l1, hlen])]
  have hbm : ∀ q k, L[q]? = some k → ∀ i, i ∈ bucket b q ↔ i < n ∧ InCell dx disp (x i) k := by
    intro q k hk i
    rw [hbucket, List.mem_filter, h2.mem_iff, List.mem_range]
    refine and_congr_right fun hi => ?_
    rw [hent i hi, hcl, beq_iff_eq]
    obtain ⟨hql, hk⟩ := List.getElem?_eq_some_iff.1 hk
    constructor
    · rintro rfl
      rw [← hk]
      exact (List.getElem_idxOf _).symm
    · intro h
      show L.idxOf (cell i) = q
      rw [h, ← hk]
      exact List.Nodup.idxOf_getElem hnd q hql
  refine ⟨b, hbuild, rfl, hnd, hmem, by rw [← hlen, ← l1], fun q k hk => ⟨_, rfl, ?_, hbm q k hk⟩, hflat, ?_, htot, ?_⟩
  · rw [hbucket]; exact List.filter_sublist
  · show ps.Perm _
    refine (List.perm_ext_iff_of_nodup ?_ List.nodup_range).2 fun i => ?_
    · rw [← hflat]
      refine List.nodup_flatMap.2 ⟨fun q _ => by rw [hbucket]; exact (h2.nodup_iff.2 List.nodup_range).filter _, ?_⟩
      refine List.Pairwise.imp ?_ List.nodup_range
      intro q q' hne
      simp only [Function.onFun, List.disjoint_left, hbucket, List.mem_filter, beq_iff_eq]
      rintro i ⟨_, a⟩ ⟨_, c⟩
      exact hne (a ▸ c)
    · rw [← hflat, List.mem_flatMap]
      constructor
      · rintro ⟨q, _, hi⟩
        rw [hbucket] at hi
        exact h2.mem_iff.1 (List.mem_filter.1 hi).1
      · intro hi
        have hi' := List.mem_range.1 hi
        refine ⟨L.idxOf (cell i), List.mem_range.2 (List.idxOf_lt_length_iff.2 (hin i hi')), ?_⟩
        rw [hbm _ _ (List.getElem?_idxOf (hin i hi'))]
        exact ⟨hi', (hcl i _).2 rfl⟩
  · show Bvtt.num f o2 L.length = 0
    rw [Bvtt.num, List.length_eq_zero_iff, List.filter_eq_nil_iff]
    intro i hi
    have := (hall h2 i hi).2
    rw [hnn] at this
    simp only [beq_iff_eq]
    omega

/-- With the displacement that `bucketCoord` assumes, a particle is found in the bucket of its position. -/
theorem lookup_partial (dx : K) {n : Nat} (x : Nat → Fin d → K) (junk : Nat → Nat) {o0 o1 o2 : List Nat} (h0 : o0.Perm (List.range n)) (h1 : o1.Perm (List.range n)) (h2 : o2.Perm (List.range n))
    {b : IndexBuckets K d} (hb : build dx (1 / 2) n x junk o0 o1 o2 = some b) {i : Nat} (hi : i < n) : ∃ q, query b.table (bucketCoord b (x i)) = some q ∧ i ∈ bucket b q := by
  obtain ⟨b', e, hdx, -, hm, -, hbk, -⟩ := build_exact dx (1 / 2) x junk h0 h1 h2
  rw [hb] at e
  obtain rfl := Option.some.inj e
  have hc : InCell dx (1 / 2) (x i) (bucketCoord b (x i)) := by
    rw [inCell_iff]; funext a; simp only [coord, bucketCoord, hdx, add_zero]
  have hmem := (hm _).2 ⟨i, hi, hc⟩
  refine ⟨_, query_mem hmem, ?_⟩
  obtain ⟨l, rfl, -, hl⟩ := hbk _ _ (List.getElem?_idxOf hmem)
  exact (hl i).2 ⟨hi, hc⟩

/-- With another displacement the cell of `bucketCoord` need not even exist. -/
theorem lookup_violated : ∃ (x : Nat → Fin 3 → ℚ) (b : IndexBuckets ℚ 3), build 1 0 1 x (fun _ => 0) [0] [0] [0] = some b ∧ query b.table (bucketCoord b (x 0)) = none := by
  obtain ⟨b, e, hdx, -, hm, -⟩ := build_exact (1 : ℚ) 0 (fun _ _ => 3 / 5 : Nat → Fin 3 → ℚ) (fun _ => 0) (n := 1) (o0 := [0]) (o1 := [0]) (o2 := [0]) (by decide) (by decide) (by decide)
  refine ⟨_, b, e, ?_⟩
  have : bucketCoord b (fun _ => 3 / 5) ∉ b.table := by
    rw [hm]
    rintro ⟨i, _, h⟩
    have := h 0
    simp only [bucketCoord, hdx] at this
    have hfl : ⌊(3 / 5 : ℚ) * (1 / 1) + 1 / 2⌋ = 1 := by rw [Int.floor_eq_iff]; norm_num
    rw [hfl] at this
    norm_num at this
  exact if_neg this

/-- The 27 buckets around a particle have all others in range, once each, if the radius is at most the width. -/
theorem neighbours_exact {dx : K} (hdx : 0 < dx) {n : Nat} (x : Nat → Fin 3 → K) (junk : Nat → Nat) {o0 o1 o2 : List Nat} (h0 : o0.Perm (List.range n)) (h1 : o1.Perm (List.range n))
    (h2 : o2.Perm (List.range n)) {b : IndexBuckets K 3} (hb : build dx (1 / 2) n x junk o0 o1 o2 = some b) {inRange : (Fin 3 → K) → (Fin 3 → K) → Bool}
    (hr : ∀ y z, inRange y z = true → ∀ a, |y a - z a| ≤ dx) (i : Nat) : (neighbours b x inRange i).Nodup ∧ ∀ j, j ∈ neighbours b x inRange i ↔ j < n ∧ j ≠ i ∧ inRange (x i) (x j) = true := by
  obtain ⟨b', e, hbdx, hnd, hm, -, hbk, -⟩ := build_exact dx (1 / 2) x junk h0 h1 h2
  rw [hb] at e
  obtain rfl := Option.some.inj e
  -- what one of the cells contributes
  set part : Key 3 → List Nat := fun o => match query b.table ((fun a => bucketCoord b (x i) a - 1) + o) with
    | none => []
    | some q => (bucket b q).filter fun j => !(j == i) && inRange (x i) (x j) with hpart
  have hpm : ∀ o j, j ∈ part o ↔ j < n ∧ InCell dx (1 / 2) (x j) ((fun a => bucketCoord b (x i) a - 1) + o) ∧ j ≠ i ∧ inRange (x i) (x j) = true := by
    intro o j
    simp only [hpart]
    cases hq : query b.table ((fun a => bucketCoord b (x i) a - 1) + o) with
    | none =>
      simp only [List.not_mem_nil, false_iff]
      rintro ⟨hj, hc, -⟩
      have := query_mem ((hm _).2 ⟨j, hj, hc⟩)
      rw [hq] at this
      cases this
    | some q =>
      obtain ⟨l, rfl, -, hl⟩ := hbk _ _ (query_some hq).2
      simp only [List.mem_filter, hl, Bool.and_eq_true, Bool.not_eq_true', beq_eq_false_iff_ne]
      tauto
  have hpn : ∀ o, (part o).Nodup := by
    intro o
    simp only [hpart]
    cases hq : query b.table ((fun a => bucketCoord b (x i) a - 1) + o) with
    | none => exact List.nodup_nil
    | some q =>
      obtain ⟨l, rfl, hs, -⟩ := hbk _ _ (query_some hq).2
      exact ((h2.nodup_iff.2 List.nodup_range).sublist hs).filter _
  have hnb : neighbours b x inRange i = around.flatMap part := rfl
  rw [hnb]
  constructor
  · refine List.nodup_flatMap.2 ⟨fun o _ => hpn o, List.Pairwise.imp ?_ nodup_around⟩
    intro o o' hne
    simp only [Function.onFun, List.disjoint_left, hpm]
    rintro j ⟨_, c1, _⟩ ⟨_, c2, _⟩
    rw [inCell_iff] at c1 c2
    exact hne (add_left_cancel (c1.symm.trans c2))
  · intro j
    simp only [List.mem_flatMap, hpm, mem_around]
    constructor
    · rintro ⟨o, -, h1, -, h3, h4⟩; exact ⟨h1, h3, h4⟩
    · rintro ⟨hj, hne, hin⟩
      refine ⟨fun a => coord dx (1 / 2) 0 (x j) a - (bucketCoord b (x i) a - 1), fun a => ?_, hj, ?_, hne, hin⟩
      · have habs := abs_le.1 (hr _ _ hin a)
        have hdd : (x i a - x j a) * (1 / dx) ≤ 1 ∧ -1 ≤ (x i a - x j a) * (1 / dx) := by
          rw [← div_eq_mul_one_div]
          exact ⟨(div_le_one hdx).2 habs.2, by rw [le_div_iff₀ hdx]; linarith [habs.1]⟩
        have hsub : (x i a - x j a) * (1 / dx) = x i a * (1 / dx) - x j a * (1 / dx) := by ring
        rw [hsub] at hdd
        simp only [coord, bucketCoord, hbdx, add_zero]
        have g1 := Int.floor_le (x j a * (1 / dx) + 1 / 2)
        have g2 := Int.lt_floor_add_one (x j a * (1 / dx) + 1 / 2)
        have g3 := Int.floor_le (x i a * (1 / dx) + 1 / 2)
        have g4 := Int.lt_floor_add_one (x i a * (1 / dx) + 1 / 2)
        generalize ⌊x j a * (1 / dx) + 1 / 2⌋ = u at *
        generalize ⌊x i a * (1 / dx) + 1 / 2⌋ = v at *
        have k1 : (u : K) < ((v + 2 : Int) : K) := by push_cast; linarith [hdd.1, hdd.2]
        have k2 : (v : K) < ((u + 2 : Int) : K) := by push_cast; linarith [hdd.1, hdd.2]
        have k1 := Int.cast_lt.1 k1
        have k2 := Int.cast_lt.1 k2
        omega
      · rw [inCell_iff]
        funext a
        simp only [Pi.add_apply]
        ring

/-- Both tests of the code imply this for a radius that is at most the width. -/
theorem range_tests {dx r : K} (h0 : 0 ≤ r) (hr : r ≤ dx) (y z : Fin 3 → K) : (boxRange r y z = true → ∀ a, |y a - z a| ≤ dx) ∧ (ballRange r y z = true → ∀ a, |y a - z a| ≤ dx) := by
  constructor
  · intro h a
    exact ((of_decide_eq_true h) a).le.trans hr
  · intro h a
    have h : (y 0 - z 0) ^ 2 + (y 1 - z 1) ^ 2 + (y 2 - z 2) ^ 2 < r * r := of_decide_eq_true h
    have : (y a - z a) ^ 2 ≤ r ^ 2 := by
      have e0 := sq_nonneg (y 0 - z 0)
      have e1 := sq_nonneg (y 1 - z 1)
      have e2 := sq_nonneg (y 2 - z 2)
      fin_cases a <;> simp only [Fin.zero_eta, Fin.mk_one, Fin.reduceFinMk] <;> linarith [sq r]
    exact (abs_le_of_sq_le_sq this h0).trans hr

/-- Three particles, two of them in one cell. -/
example : (build (1 : ℚ) (1 / 2) 3 (fun i _ => if i = 1 then 5 else 0) (fun _ => 0) [0, 1, 2] [0, 1, 2] [2, 1, 0]).map (fun b : IndexBuckets ℚ 1 => (b.table, b.indices)) =
    some ([fun _ => 0, fun _ => 5], [2, 0, 1]) := by decide +kernel

end Verif.Buckets
