import Mathlib.Order.Defs.LinearOrder
import Verif.Proof.Bvh
/-! Properties of the queries of bounding volume hierarchies: C50, C63. -/
namespace Verif.Bvh

variable {dim : Nat} {T S : Type}

/-! ## Boxes -/

theorem overlaps_iff [LT T] [DecidableLT T] (a b : Box dim T) : overlaps a b = true ↔ ∀ d, ¬ a.hi d < b.lo d ∧ ¬ b.hi d < a.lo d := by
  unfold overlaps
  rw [List.all_eq_true]
  constructor
  · intro h d
    have := h d (List.mem_finRange d)
    simpa using this
  · intro h d _
    simpa using h d

/-- `overlaps` says whether boxes have a point in common. -/
theorem overlaps_meet [LinearOrder T] (a b : Box dim T) (ha : ∀ d, a.lo d ≤ a.hi d) (hb : ∀ d, b.lo d ≤ b.hi d) :
    overlaps a b = true ↔ Meet a b := by
  rw [overlaps_iff]
  constructor
  · intro h
    refine ⟨fun d => if a.lo d ≤ b.lo d then b.lo d else a.lo d, fun d => ?_⟩
    obtain ⟨h1, h2⟩ := h d
    dsimp only
    split
    · rename_i h3
      exact ⟨h3, le_of_not_gt h1, le_refl _, hb d⟩
    · rename_i h3
      exact ⟨le_refl _, ha d, le_of_lt (lt_of_not_ge h3), le_of_not_gt h2⟩
  · rintro ⟨x, hx⟩ d
    obtain ⟨h1, h2, h3, h4⟩ := hx d
    exact ⟨not_lt_of_ge (le_trans h3 h2), not_lt_of_ge (le_trans h1 h4)⟩

theorem Contains.trans [LinearOrder T] {a b c : Box dim T} (h1 : Contains a b) (h2 : Contains b c) : Contains a c :=
  fun d => ⟨le_trans (h1 d).1 (h2 d).1, le_trans (h2 d).2 (h1 d).2⟩

theorem Contains.overlaps [LinearOrder T] {a b q : Box dim T} (h : Contains a b) (ho : overlaps b q = true) : Bvh.overlaps a q = true := by
  rw [overlaps_iff] at ho ⊢
  intro d
  obtain ⟨h1, h2⟩ := h d
  obtain ⟨o1, o2⟩ := ho d
  exact ⟨fun h3 => o1 (lt_of_le_of_lt h2 h3), fun h3 => o2 (lt_of_lt_of_le h3 h1)⟩

/-- The box made from the boxes of the children contains both. -/
theorem mergeBox_contains [LinearOrder T] (a b : Box dim T) : Contains (mergeBox a b) a ∧ Contains (mergeBox a b) b := by
  have hmin : ∀ x y : T, minOf x y ≤ x ∧ minOf x y ≤ y := by
    intro x y
    unfold minOf
    split
    · rename_i h; exact ⟨le_of_lt h, le_refl _⟩
    · rename_i h; exact ⟨le_refl _, le_of_not_gt h⟩
  have hmax : ∀ x y : T, x ≤ maxOf x y ∧ y ≤ maxOf x y := by
    intro x y
    unfold maxOf
    split
    · rename_i h; exact ⟨le_of_lt h, le_refl _⟩
    · rename_i h; exact ⟨le_refl _, le_of_not_gt h⟩
  unfold mergeBox mergePoint
  exact ⟨fun d => ⟨le_trans (hmin _ _).1 (hmin _ _).1, le_trans (hmax _ _).1 (hmax _ _).1⟩,
    fun d => ⟨le_trans (hmin _ _).1 (hmin _ _).2, (hmax _ _).2⟩⟩

/-! ## Queries -/

section
variable [LinearOrder T] {t : Bvh (Box dim T)} {tr : Tree} {prim : Nat → Box dim T}

theorem Boxed.box (h : Boxed t tr prim) {v : Nat} (hv : v < tr.size) : ∃ b, t.bvs[v]? = some b := by
  obtain ⟨u, hu⟩ := tr.sub_exists hv
  cases u with
  | leaf p => exact ⟨_, h.leaf v p hu⟩
  | node l r =>
    obtain ⟨b, _, _, e, _⟩ := h.node v l r hu
    exact ⟨b, e⟩

/-- A function with the boxes in the array. -/
theorem Boxed.fn (h : Boxed t tr prim) : ∃ bx : Nat → Box dim T, (∀ v, v < tr.size → t.bvs[v]? = some (bx v)) ∧
    (∀ v p, tr.sub v = some (.leaf p) → bx v = prim p) ∧
    ∀ u v, tr.sub v = some u → ∀ x ∈ u.leavesAt v, Contains (bx v) (bx x.1) := by
  obtain ⟨b0, _⟩ := h.box tr.size_pos
  have key : ∀ {w : Nat} {c : Box dim T}, t.bvs[w]? = some c → t.bvs[w]?.getD b0 = c := by
    intro w c hc
    rw [hc]; rfl
  refine ⟨fun v => t.bvs[v]?.getD b0, ?_, fun v p hp => key (h.leaf v p hp), ?_⟩
  · intro v hv
    obtain ⟨b, e⟩ := h.box hv
    dsimp only
    rw [e]; rfl
  · intro u
    induction u with
    | leaf p =>
      intro v hv x hx
      simp only [Tree.leavesAt, List.mem_singleton] at hx
      subst hx
      exact fun d => ⟨le_refl _, le_refl _⟩
    | node l r ihl ihr =>
      intro v hv x hx
      obtain ⟨h1, h2⟩ := Tree.sub_node hv
      obtain ⟨b, bl, br, e, el, er, c1, c2⟩ := h.node v l r hv
      simp only [Tree.leavesAt, List.mem_append] at hx
      dsimp only at ihl ihr ⊢
      rcases hx with hx | hx
      · have := ihl _ h1 x hx
        rw [key e]
        rw [key el] at this
        exact c1.trans this
      · have := ihr _ h2 x hx
        rw [key e]
        rw [key er] at this
        exact c2.trans this

end

/-- Visits that only call `f` where a test holds. -/
theorem visits_filter {B : Type} {bx : Nat → B} {inner : S → B → Bool} (p : B → Bool) (f : S → Int → S × Bool) : ∀ (l : List (Nat × Nat)) (s : S),
    (visits ⟨inner, fun s b => if p b then some (f s) else none⟩ bx s l).1 =
      calls f s ((l.filter fun x => p (bx x.1)).map fun x => (x.2 : Int)) := by
  intro l
  induction l with
  | nil => intro s; rfl
  | cons x l ih =>
    intro s
    have e : leafStep ⟨inner, fun s b => if p b then some (f s) else none⟩ bx s x = if p (bx x.1) then f s x.2 else (s, false) := by
      unfold leafStep
      dsimp only
      split <;> rename_i h <;> split at h
      · cases h
      · rw [if_neg (by assumption)]
      · cases h; rw [if_pos (by assumption)]
      · cases h
    rw [visits, e, List.filter_cons]
    by_cases hp : p (bx x.1) = true
    · rw [if_pos hp, if_pos hp, List.map_cons, calls]
      cases hf : (f s x.2).2 with
      | true => simp
      | false => simpa using ih _
    · rw [if_neg hp, if_neg hp]
      simpa using ih s

/-- Replacing positions by primitives. -/
theorem leaves_filter {B : Type} {bx prim : Nat → B} (p : B → Bool) : ∀ (l : List (Nat × Nat)),
    (∀ x ∈ l, bx x.1 = prim x.2) →
    (l.filter fun x => p (bx x.1)).map (fun x => (x.2 : Int)) = ((l.map (·.2)).filter fun i => p (prim i)).map fun i : Nat => (i : Int) := by
  intro l
  induction l with
  | nil => intro _; rfl
  | cons x l ih =>
    intro h
    have ih := ih fun y hy => h y (List.mem_cons_of_mem _ hy)
    rw [List.filter_cons, List.map_cons, List.filter_cons, h x (List.mem_cons_self ..)]
    split
    · rw [List.map_cons, List.map_cons, ih]
    · exact ih

section
variable [LinearOrder T] {t : Bvh (Box dim T)} {tr : Tree} {prim : Nat → Box dim T} (hl : Layout t tr) (hb : Boxed t tr prim)
  (f : S → Int → S × Bool) (s : S)
include hl hb

/-- C50: `iter_neighbors(bv, f)` calls `f` with exactly the primitives whose boxes overlap `bv`, each once, from left to right,
until a call returns `true`. -/
theorem iter_neighbors_exact (bv : Box dim T) {fuel : Nat} (hf : tr.size + 2 ≤ fuel) :
    iterNeighbors t bv f fuel s = .ok (calls f s ((tr.prims.filter fun p => overlaps (prim p) bv).map fun p : Nat => (p : Int))) := by
  obtain ⟨bx, b1, b2, b3⟩ := hb.fn
  unfold iterNeighbors
  rw [query_spec hl b1 _ s hf, visits_filter (fun b => overlaps b bv) f, leaves_filter (prim := prim) (fun b => overlaps b bv), Tree.leavesAt_snd]
  · exact fun x hx => b2 _ _ (Tree.leavesAt_sub (Tree.sub_zero tr) x hx)
  · intro v l r hv s hi x hx
    have := b3 _ v hv x hx
    dsimp only at hi ⊢
    rw [if_neg]
    intro h
    rw [this.overlaps h] at hi
    cases hi

/-- C63: `self_iter_neighbors(k, f)` calls `f` with the primitives from the `k`-th leaf on, the `k`-th included, that overlap it. -/
theorem self_iter_exact {k i : Nat} (hk : tr.prims[k]? = some i) {fuel : Nat} (hf : tr.size + 2 ≤ fuel) :
    selfIterNeighbors t k f fuel s =
      .ok (calls f s (((tr.prims.drop k).filter fun p => overlaps (prim p) (prim i)).map fun p : Nat => (p : Int))) := by
  obtain ⟨bx, b1, b2, b3⟩ := hb.fn
  obtain ⟨x, hx, rfl⟩ : ∃ x, (tr.leavesAt 0)[k]? = some x ∧ x.2 = i := by
    rw [← Tree.leavesAt_snd tr 0, List.getElem?_map] at hk
    exact Option.map_eq_some_iff.1 hk
  have hsub := Tree.leavesAt_sub (Tree.sub_zero tr) x (List.mem_of_getElem? hx)
  have hpos : t.leafInds[k]? = some x.1 := by
    rw [hl.leafInds, ← Tree.leavesAt_fst, List.getElem?_map, hx]; rfl
  unfold selfIterNeighbors
  rw [if_neg (by rw [hl.size]; have := hl.big; omega), hpos]
  dsimp only
  rw [b1 _ (Tree.sub_lt hsub)]
  dsimp only
  obtain ⟨a, ha, ea⟩ := walk_from hl b1 (q := ⟨fun _ b => overlaps b (bx x.1), fun s b => if overlaps b (bx x.1) then some (f s) else none⟩) (ed := -1)
    (by
      intro v l r hv s hi y hy
      have := b3 _ v hv y hy
      dsimp only at hi ⊢
      rw [if_neg]
      intro h
      rw [this.overlaps h] at hi
      cases hi) tr (Tree.sub_zero tr) (fun w _ _ h => by omega) (fun _ => rfl) k x hx s
  have e := ea (fuel - a - 1 + 1)
  rw [show fuel - a - 1 + 1 + a = fuel by omega] at e
  rw [e]
  have hfin : ∀ r : S × Bool, rest t ⟨fun _ b => overlaps b (bx x.1), fun s b => if overlaps b (bx x.1) then some (f s) else none⟩ (-1)
      (fuel - a - 1 + 1) (0 + tr.size) r = .ok r.1 := by
    intro r
    cases h : r.2 with
    | true => exact rest_true _ _ _ _ _ _ h
    | false => rw [rest_false _ _ _ _ _ _ h, walk_succ, if_pos (.inr (by rw [hl.size, Nat.zero_add]))]
  rw [hfin, visits_filter (fun b => overlaps b (bx x.1)) f, leaves_filter (prim := prim) (fun b => overlaps b (bx x.1)), List.map_drop, Tree.leavesAt_snd,
    b2 _ _ hsub]
  exact fun y hy => b2 _ _ (Tree.leavesAt_sub (Tree.sub_zero tr) y (List.mem_of_mem_drop hy))

/-- C50: `iter_neighbors(bv, node, f)` does the same for the primitives below a node. -/
theorem iter_treelet_exact (bv : Box dim T) (g : S → Int → S) {v : Nat} {u : Tree} (hv : tr.sub v = some u) {fuel : Nat} (hf : tr.size + 2 ≤ fuel) :
    iterTreelet t bv v g fuel s = .ok (((u.prims.filter fun p => overlaps (prim p) bv).map fun p : Nat => (p : Int)).foldl g s) := by
  obtain ⟨bx, b1, b2, b3⟩ := hb.fn
  have hcalls : ∀ (l : List Int) (s : S), calls (fun s i => (g s i, false)) s l = l.foldl g s := by
    intro l
    induction l with
    | nil => intro s; rfl
    | cons a l ih => intro s; exact ih _
  have hq : ∀ w l r, tr.sub w = some (.node l r) → ∀ s : S, overlaps (bx w) bv = false → ∀ x ∈ (Tree.node l r).leavesAt w,
      (if overlaps (bx x.1) bv then some (fun i => (g s i, false)) else none) = none := by
    intro w l r hw s hi x hx
    have := b3 _ w hw x hx
    rw [if_neg]
    intro h
    rw [this.overlaps h] at hi
    cases hi
  have main : ∀ ed : Int, (∀ w, v ≤ w → w < v + u.size → (w : Int) ≠ ed) → (v + u.size = tr.size → ed = -1) →
      (ed = ((v + u.size : Nat) : Int) ∨ v + u.size = tr.size) →
      walk t ⟨fun _ b => overlaps b bv, fun s b => if overlaps b bv then some (fun i => (g s i, false)) else none⟩ ed fuel v s =
        .ok (((u.prims.filter fun p => overlaps (prim p) bv).map fun p : Nat => (p : Int)).foldl g s) := by
    intro ed he hd hfin
    obtain ⟨a, ha, ea⟩ := walk_spec hl b1 (q := ⟨fun _ b => overlaps b bv, fun s b => if overlaps b bv then some (fun i => (g s i, false)) else none⟩)
      (fun w l r hw s hi x hx => hq w l r hw s hi x hx) hv he hd s
    have hle := Tree.sub_le hv
    have e := ea (fuel - a - 1 + 1)
    rw [show fuel - a - 1 + 1 + a = fuel by omega] at e
    rw [e]
    have hfin : ∀ r : S × Bool, rest t ⟨fun _ b => overlaps b bv, fun s b => if overlaps b bv then some (fun i => (g s i, false)) else none⟩ ed
        (fuel - a - 1 + 1) (v + u.size) r = .ok r.1 := by
      intro r
      cases h : r.2 with
      | true => exact rest_true _ _ _ _ _ _ h
      | false =>
        rw [rest_false _ _ _ _ _ _ h, walk_succ, if_pos]
        rcases hfin with h | h
        · exact .inl h.symm
        · exact .inr (by rw [hl.size, h])
    rw [hfin, visits_filter (fun b => overlaps b bv) (fun s i => (g s i, false)), hcalls,
      leaves_filter (prim := prim) (fun b => overlaps b bv), Tree.leavesAt_snd]
    exact fun x hx => b2 _ _ (Tree.leavesAt_sub hv x hx)
  unfold iterTreelet
  rw [if_neg (by rw [hl.size]; have := hl.big; omega), hl.levels v u hv]
  cases u with
  | node l r =>
    simp only [Tree.spine]
    rw [hl.escape v l r hv]
    dsimp only
    refine main _ (fun w w1 w2 h => ?_) (fun h => if_pos h) ?_
    · split at h <;> omega
    · by_cases h : v + (Tree.node l r).size = tr.size
      · exact .inr h
      · rw [if_neg h]; exact .inl rfl
  | leaf p =>
    simp only [Tree.spine]
    have hlt := Tree.sub_lt hv
    obtain ⟨n, rfl⟩ : ∃ n, fuel = n + 2 := ⟨fuel - 2, by omega⟩
    rw [walk_succ, if_neg (by rw [hl.size]; omega), at?_nat, hl.levels v _ hv]
    dsimp only
    rw [body]
    simp only [Tree.spine, descend]
    rw [at?_nat, b1 v hlt, b2 v p hv]
    dsimp only
    simp only [Tree.prims, List.filter_cons, List.filter_nil]
    by_cases h : overlaps (prim p) bv = true
    · rw [if_pos h, if_pos h]
      dsimp only
      rw [at?_nat, hl.prim v p hv]
      dsimp only
      rw [if_neg (by simp), walk_succ, if_pos (.inl rfl)]
      rfl
    · rw [if_neg h, if_neg h]
      dsimp only
      rw [walk_succ, if_pos (.inl rfl)]
      rfl

/-- `find_nearest(p, f)`: `f` is called with every primitive whose box is nearer than the current distance when its turn comes,
whatever `f` does, provided that containing boxes are not farther. -/
theorem find_nearest_exact {D : Type} [LinearOrder D] (d : Box dim T → D) (hd : ∀ a b, Contains a b → d a ≤ d b) (dist : S → D) (g : S → Int → S)
    {fuel : Nat} (hf : tr.size + 2 ≤ fuel) :
    findNearest t d dist g fuel s = .ok (tr.prims.foldl (fun s p => if d (prim p) < dist s then g s p else s) s) := by
  obtain ⟨bx, b1, b2, b3⟩ := hb.fn
  unfold findNearest
  rw [query_spec hl b1 _ s hf]
  · have key : ∀ (l : List (Nat × Nat)), (∀ x ∈ l, bx x.1 = prim x.2) → ∀ s : S,
        (visits ⟨fun s b => !decide (dist s < d b), fun s b => if d b < dist s then some (fun i => (g s i, false)) else none⟩ bx s l).1 =
          (l.map (·.2)).foldl (fun s p => if d (prim p) < dist s then g s p else s) s := by
      intro l
      induction l with
      | nil => intro _ s; rfl
      | cons x l ih =>
        intro h s
        have ih := ih fun y hy => h y (List.mem_cons_of_mem _ hy)
        rw [visits, leafStep, List.map_cons, List.foldl_cons]
        dsimp only
        rw [h x (List.mem_cons_self ..)]
        split
        · simpa using ih _
        · simpa using ih s
    rw [key _ (fun x hx => b2 _ _ (Tree.leavesAt_sub (Tree.sub_zero tr) x hx)), Tree.leavesAt_snd]
  · intro v l r hv s hi x hx
    have := hd _ _ (b3 _ v hv x hx)
    dsimp only at hi ⊢
    rw [if_neg]
    intro h
    have h2 : dist s < d (bx v) := by simpa using hi
    exact absurd (lt_trans (lt_of_lt_of_le h2 this) h) (lt_irrefl _)

/-- `find_nearest_point`: the distances are compared for every primitive, from left to right, provided that no box is farther than
the corner of a box that it contains. -/
theorem find_nearest_point_exact {D : Type} [LinearOrder D] (dn dl : Box dim T → D) (hd : ∀ a b, Contains a b → dn a ≤ dl b) (s : D × Int)
    {fuel : Nat} (hf : tr.size + 2 ≤ fuel) :
    findNearestPoint t dn dl fuel s = .ok (tr.prims.foldl (fun s p => if dl (prim p) < s.1 then (dl (prim p), (p : Int)) else s) s) := by
  obtain ⟨bx, b1, b2, b3⟩ := hb.fn
  unfold findNearestPoint
  rw [query_spec hl b1 _ s hf]
  · have key : ∀ (l : List (Nat × Nat)), (∀ x ∈ l, bx x.1 = prim x.2) → ∀ s : D × Int,
        (visits ⟨fun s b => !decide (s.1 < dn b), fun s b => if dl b < s.1 then some (fun i => ((dl b, i), false)) else none⟩ bx s l).1 =
          (l.map (·.2)).foldl (fun s p => if dl (prim p) < s.1 then (dl (prim p), (p : Int)) else s) s := by
      intro l
      induction l with
      | nil => intro _ s; rfl
      | cons x l ih =>
        intro h s
        have ih := ih fun y hy => h y (List.mem_cons_of_mem _ hy)
        rw [visits, leafStep, List.map_cons, List.foldl_cons]
        dsimp only
        rw [h x (List.mem_cons_self ..)]
        split
        · simpa using ih _
        · simpa using ih s
    rw [key _ (fun x hx => b2 _ _ (Tree.leavesAt_sub (Tree.sub_zero tr) x hx)), Tree.leavesAt_snd]
  · intro v l r hv s hi x hx
    have := hd _ _ (b3 _ v hv x hx)
    dsimp only at hi ⊢
    rw [if_neg]
    intro h
    have h2 : s.1 < dn (bx v) := by simpa using hi
    exact absurd (lt_trans (lt_of_lt_of_le h2 this) h) (lt_irrefl _)

/-- `ray_intersect(ro, rd, f)` calls `f` with exactly the primitives whose boxes are hit, if boxes around boxes that are hit are hit. -/
theorem ray_intersect_exact (hit : Box dim T → Bool) (hh : ∀ a b, Contains a b → hit b = true → hit a = true) (g : S → Int → S)
    {fuel : Nat} (hf : tr.size + 2 ≤ fuel) :
    rayIntersect t hit g fuel s = .ok (((tr.prims.filter fun p => hit (prim p)).map fun p : Nat => (p : Int)).foldl g s) := by
  obtain ⟨bx, b1, b2, b3⟩ := hb.fn
  have hcalls : ∀ (l : List Int) (s : S), calls (fun s i => (g s i, false)) s l = l.foldl g s := by
    intro l
    induction l with
    | nil => intro s; rfl
    | cons a l ih => intro s; exact ih _
  unfold rayIntersect
  rw [query_spec hl b1 _ s hf, visits_filter (fun b => hit b) (fun s i => (g s i, false)), hcalls,
    leaves_filter (prim := prim) (fun b => hit b), Tree.leavesAt_snd]
  · exact fun x hx => b2 _ _ (Tree.leavesAt_sub (Tree.sub_zero tr) x hx)
  · intro v l r hv s hi x hx
    have := b3 _ v hv x hx
    dsimp only at hi ⊢
    rw [if_neg]
    intro h
    rw [hh _ _ this h] at hi
    cases hi

end

/-! ## Any number of primitives -/

theorem Layout.three {B : Type} {t : Bvh B} {tr : Tree} (hl : Layout t tr) : 2 < tr.prims.length := by
  have h1 := tr.size_eq
  have h2 := hl.size
  have h3 := hl.big
  unfold Bvh.numNodes at h2
  rw [hl.leafInds, Tree.leafPos_length] at h2
  split at h2 <;> omega

/-- What has been found. -/
def collect (l : List Int) (i : Int) : List Int × Bool := (l ++ [i], false)

theorem calls_collect : ∀ (l s : List Int), calls collect s l = s ++ l := by
  intro l
  induction l with
  | nil => intro s; simp [calls]
  | cons a l ih =>
    intro s
    rw [calls, collect, if_neg (by simp)]
    rw [ih, List.append_assoc]; rfl

section
variable [LinearOrder T] {t : Bvh (Box dim T)} {n : Nat} {prim : Nat → Box dim T}

omit [LinearOrder T] in
theorem few_bvs (hn : t.leafInds.length = n) (h2 : n ≤ 2) (hb : t.bvs = (List.range n).map prim) :
    t.numNodes = n ∧ ∀ v, v < t.numNodes → t.bvs[v]? = some (prim v) := by
  have hnn : t.numNodes = n := by unfold Bvh.numNodes; rw [if_neg (by omega), hn]
  refine ⟨hnn, fun v hv => ?_⟩
  rw [hb, List.getElem?_map, List.getElem?_range (by omega)]; rfl

/-- C50: with any number of primitives, `iter_neighbors(bv, f)` calls `f` exactly once with every primitive whose box overlaps `bv` and
with nothing else, in an order that does not depend on `f`, until a call returns `true`. -/
theorem iter_neighbors_all (h : Ready t n prim) (bv : Box dim T) {fuel : Nat} (hf : 2 * n + 2 ≤ fuel) :
    ∃ found : List Nat, found.Perm ((List.range n).filter fun p => overlaps (prim p) bv) ∧
      ∀ (S : Type) (f : S → Int → S × Bool) (s : S), iterNeighbors t bv f fuel s = .ok (calls f s (found.map fun p : Nat => (p : Int))) := by
  cases h with
  | few hn h2 hb =>
    obtain ⟨hnn, hbx⟩ := few_bvs hn h2 hb
    refine ⟨_, .refl _, fun S f s => ?_⟩
    unfold iterNeighbors query
    rw [if_pos (by omega), scan_spec hbx n 0 fuel (by omega) (by omega), visits_filter (fun b => overlaps b bv) f,
      leaves_filter (prim := prim) (fun b => overlaps b bv)]
    · rw [List.map_map, List.range_eq_range']
      simp [Function.comp_def]
    · intro x hx
      obtain ⟨v, _, rfl⟩ := List.mem_map.1 hx
      rfl
  | tree tr hl hb hp =>
    refine ⟨_, hp.filter _, fun S f s => iter_neighbors_exact hl hb f s bv ?_⟩
    have h1 := tr.size_eq
    have h2 := hp.length_eq
    rw [List.length_range] at h2
    omega

/-- C63: what `self_iter_neighbors` finds, for every leaf: primitives in one order of all of them, from the own one on if there are more than
two primitives and after the own one otherwise. -/
theorem self_iter_all (h : Ready t n prim) {fuel : Nat} (hf : 2 * n + 2 ≤ fuel) :
    ∃ order : List Nat, order.Perm (List.range n) ∧ ∀ (k i : Nat), order[k]? = some i → ∀ (S : Type) (f : S → Int → S × Bool) (s : S),
      selfIterNeighbors t k f fuel s =
        .ok (calls f s (((order.drop (if n ≤ 2 then k + 1 else k)).filter fun p => overlaps (prim p) (prim i)).map fun p : Nat => (p : Int))) := by
  cases h with
  | few hn h2 hb =>
    obtain ⟨hnn, hbx⟩ := few_bvs hn h2 hb
    refine ⟨_, .refl _, fun k i hk S f s => ?_⟩
    obtain ⟨hkn, e⟩ := List.getElem?_eq_some_iff.1 hk
    rw [List.getElem_range] at e
    subst e
    rw [List.length_range] at hkn
    unfold selfIterNeighbors
    rw [if_pos (by omega), hbx k (by omega), if_pos h2]
    dsimp only
    rw [scan_spec hbx (n - (k + 1)) (k + 1) fuel (by omega) (by omega), visits_filter (fun b => overlaps b (prim k)) f,
      leaves_filter (prim := prim) (fun b => overlaps b (prim k))]
    · have e : (List.range n).drop (k + 1) = List.range' (k + 1) (n - (k + 1)) := by
        rw [List.range_eq_range', List.drop_range']
        simp
      rw [List.map_map, e]
      simp [Function.comp_def]
    · intro x hx
      obtain ⟨v, _, rfl⟩ := List.mem_map.1 hx
      rfl
  | tree tr hl hb hp =>
    have h1 := tr.size_eq
    have h2 := hp.length_eq
    have h3 := hl.big
    rw [List.length_range] at h2
    have h4 : ¬ n ≤ 2 := by have := hl.three; omega
    refine ⟨_, hp, fun k i hk S f s => ?_⟩
    rw [if_neg h4]
    exact self_iter_exact hl hb f s hk (by omega)

/-- C63: two different primitives whose boxes overlap are reported once, by one of their two leaves, and two primitives whose boxes do not
overlap are not. -/
theorem self_iter_pairs_partial (h : Ready t n prim) {fuel : Nat} (hf : 2 * n + 2 ≤ fuel) :
    ∃ order : List Nat, order.Perm (List.range n) ∧ ∀ (a b i j : Nat), a < b → order[a]? = some i → order[b]? = some j →
      ∃ fa fb : List Int, selfIterNeighbors t a collect fuel [] = .ok fa ∧ selfIterNeighbors t b collect fuel [] = .ok fb ∧
        fa.count (j : Int) + fb.count (i : Int) = if overlaps (prim j) (prim i) then 1 else 0 := by
  obtain ⟨order, hp, ho⟩ := self_iter_all h hf
  have hnd : order.Nodup := hp.nodup_iff.2 List.nodup_range
  refine ⟨order, hp, fun a b i j hab hi hj => ?_⟩
  refine ⟨_, _, ho a i hi _ collect [], ho b j hj _ collect [], ?_⟩
  rw [calls_collect, calls_collect, List.nil_append, List.nil_append]
  have cnt : ∀ (l : List Nat) (x : Nat), (l.map fun p : Nat => (p : Int)).count (x : Int) = l.count x := by
    intro l x
    induction l with
    | nil => rfl
    | cons y l ih =>
      rw [List.map_cons, List.count_cons, List.count_cons, ih]
      congr 1
      by_cases h : y = x
      · subst h; simp
      · rw [if_neg (by simp only [beq_iff_eq]; omega), if_neg (by simpa using h)]
  rw [cnt, cnt]
  obtain ⟨hal, ea⟩ := List.getElem?_eq_some_iff.1 hi
  obtain ⟨hbl, eb⟩ := List.getElem?_eq_some_iff.1 hj
  have hdrop : ∀ (m x k : Nat), order[x]? = some k → (k ∈ order.drop m ↔ m ≤ x) := by
    intro m x k hx
    rw [List.mem_iff_getElem?]
    constructor
    · rintro ⟨q, hq⟩
      rw [List.getElem?_drop] at hq
      have := (List.getElem?_inj (by rw [List.getElem?_eq_some_iff] at hx; exact hx.1) hnd).1 (hx.trans hq.symm)
      omega
    · intro h
      exact ⟨x - m, by rw [List.getElem?_drop, show m + (x - m) = x by omega]; exact hx⟩
  have h1 : ((order.drop (if n ≤ 2 then b + 1 else b)).filter fun p => overlaps (prim p) (prim j)).count i = 0 := by
    rw [List.count_eq_zero]
    intro hm
    have := (hdrop _ a i hi).1 ((List.mem_filter.1 hm).1)
    split at this <;> omega
  have hm : j ∈ order.drop (if n ≤ 2 then a + 1 else a) := (hdrop _ b j hj).2 (by split <;> omega)
  rw [h1, Nat.add_zero]
  have hnd' := (List.drop_sublist (if n ≤ 2 then a + 1 else a) order).nodup hnd
  by_cases hov : overlaps (prim j) (prim i) = true
  · rw [if_pos hov, List.count_filter (by exact hov)]
    exact hnd'.count.trans (if_pos hm)
  · rw [if_neg hov, List.count_eq_zero]
    intro hm
    exact hov (by simpa using (List.mem_filter.1 hm).2)

/-- C63 fails for more than two primitives: every leaf whose box is not empty also reports itself first. -/
theorem self_iter_itself_violated (h : Ready t n prim) (hn : 2 < n) {fuel : Nat} (hf : 2 * n + 2 ≤ fuel) :
    ∃ order : List Nat, order.Perm (List.range n) ∧ ∀ (k i : Nat), order[k]? = some i → (∀ d, (prim i).lo d ≤ (prim i).hi d) →
      ∃ l : List Int, selfIterNeighbors t k collect fuel [] = .ok ((i : Int) :: l) := by
  obtain ⟨order, hp, ho⟩ := self_iter_all h hf
  refine ⟨order, hp, fun k i hk hne => ?_⟩
  have hov : overlaps (prim i) (prim i) = true := by
    rw [overlaps_iff]
    exact fun d => ⟨not_lt_of_ge (hne d), not_lt_of_ge (hne d)⟩
  refine ⟨((order.drop (k + 1)).filter fun p => overlaps (prim p) (prim i)).map fun p : Nat => (p : Int), ?_⟩
  rw [ho k i hk _ collect [], calls_collect, List.nil_append, if_neg (by omega)]
  obtain ⟨hkl, e⟩ := List.getElem?_eq_some_iff.1 hk
  rw [List.drop_eq_getElem_cons hkl, e, List.filter_cons, if_pos hov, List.map_cons]

/-- C63: with at most two primitives none reports itself. -/
theorem self_iter_few (h : Ready t n prim) (hn : n ≤ 2) {fuel : Nat} (hf : 2 * n + 2 ≤ fuel) :
    ∃ order : List Nat, order.Perm (List.range n) ∧ ∀ (k i : Nat), order[k]? = some i →
      ∃ l : List Int, selfIterNeighbors t k collect fuel [] = .ok l ∧ (i : Int) ∉ l := by
  obtain ⟨order, hp, ho⟩ := self_iter_all h hf
  have hnd : order.Nodup := hp.nodup_iff.2 List.nodup_range
  refine ⟨order, hp, fun k i hk => ?_⟩
  refine ⟨_, ho k i hk _ collect [], ?_⟩
  rw [calls_collect, List.nil_append, if_pos hn]
  intro hm
  obtain ⟨p, hp', e⟩ := List.mem_map.1 hm
  have e : p = i := by omega
  subst e
  obtain ⟨q, hq⟩ := List.mem_iff_getElem?.1 (List.mem_filter.1 hp').1
  rw [List.getElem?_drop] at hq
  have := (List.getElem?_inj (by rw [List.getElem?_eq_some_iff] at hk; exact hk.1) hnd).1 (hk.trans hq.symm)
  omega

end

end Verif.Bvh
