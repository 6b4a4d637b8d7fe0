import Verif.Proof.BvhBuild
import Verif.Props.BvhRefit
import Verif.Props.Radix
import Verif.Spec.BvhBuild
/-! Properties of the construction of bounding volume hierarchies: C58. -/
namespace Verif.Bvh
open Tree

/-! ## Sorting -/

/-- The codes are sorted, and the other components are the numbers of the primitives. -/
theorem sort_spec {mcs : List (BitVec 32)} {sorted : List (BitVec 32 × Nat)} (h : SortRun mcs sorted) :
    sorted.length = mcs.length ∧ Sorted (sorted.map (·.1)) ∧ (sorted.map (·.2)).Perm (List.range mcs.length) ∧
    ∀ x ∈ sorted, mcs[x.2]? = some x.1 := by
  obtain ⟨s, s', hin, hrun, hlen, hout⟩ := h
  have : ∃ out : Nat → BitVec 32 × Nat, (∀ k, k < mcs.length → s' (.out k) = .elt (out k).1 (out k).2) ∧
      Sort.StableSort mcs.length (fun x y => Radix.selBits false 0 32 x.1 < Radix.selBits false 0 32 y.1) (fun i => (mcs.getD i 0, i)) out := by
    rcases hrun with hrun | rfl
    · obtain ⟨out, h1, h2, _⟩ := Radix.radix_sort_stable false false mcs.length 0 32 (by decide) (Nat.le_refl _) (fun i => (mcs.getD i 0, i)) s s' hin hrun
      exact ⟨out, h1, h2⟩
    · obtain ⟨out, h1, h2, _⟩ := Radix.radix_sort_sequential_stable false false mcs.length 0 32 (by decide) (Nat.le_refl _) (fun i => (mcs.getD i 0, i)) s hin
      exact ⟨out, h1, h2⟩
  obtain ⟨out, ho, pos, p1, p2, p3, p4⟩ := this
  have hsel : ∀ x : BitVec 32, Radix.selBits false 0 32 x = x.toNat := by
    intro x
    have := x.isLt
    simp only [Radix.selBits, Radix.keyNum, Bool.false_eq_true, if_false]
    rw [Nat.pow_zero, Nat.div_one, Nat.mod_eq_of_lt this]
  have hget : ∀ k, k < mcs.length → sorted.getD k (0, 0) = out k := by
    intro k hk
    have := (hout k hk).symm.trans (ho k hk)
    injection this with h1 h2
    exact Prod.ext h1 h2
  have hcell : ∀ i, i < mcs.length → sorted.getD (pos i) (0, 0) = (mcs.getD i 0, i) := fun i hi => by rw [hget _ (p1 i hi), p3 i hi]
  have hat : ∀ k, k < mcs.length → sorted[k]? = some (sorted.getD k (0, 0)) := by
    intro k hk
    rw [List.getD_eq_getElem?_getD, List.getElem?_eq_getElem (by omega), Option.getD_some]
  have hcode : ∀ k, k < mcs.length → code (sorted.map (·.1)) k = (sorted.getD k (0, 0)).1 := by
    intro k hk
    rw [code, List.getD_eq_getElem?_getD, List.getElem?_map, hat k hk]; rfl
  refine ⟨hlen, ?_, ?_, ?_⟩
  · intro a b hab hb
    rw [List.length_map, hlen] at hb
    rcases Nat.lt_or_ge a b with hlt | hge
    · obtain ⟨i, hi, rfl⟩ := p2 a (by omega)
      obtain ⟨j, hj, rfl⟩ := p2 b hb
      rw [hcode _ (p1 i hi), hcode _ hb, hcell i hi, hcell j hj]
      have := (p4 i j hi hj).1 hlt
      dsimp only at this ⊢
      rw [hsel, hsel] at this
      omega
    · rw [show a = b by omega]
  · have hnd : (sorted.map (·.2)).Nodup := by
      rw [List.nodup_iff_getElem?_ne_getElem?]
      intro a b hab hb he
      rw [List.length_map, hlen] at hb
      obtain ⟨i, hi, rfl⟩ := p2 a (by omega)
      obtain ⟨j, hj, rfl⟩ := p2 b hb
      rw [List.getElem?_map, List.getElem?_map, hat _ (p1 i hi), hat _ hb, hcell i hi, hcell j hj] at he
      have : i = j := Option.some.inj he
      subst this
      exact Nat.lt_irrefl _ hab
    rw [List.perm_ext_iff_of_nodup hnd List.nodup_range]
    intro i
    rw [List.mem_range]
    constructor
    · intro hi
      obtain ⟨k, hk⟩ := List.mem_iff_getElem?.1 hi
      have hlt : k < mcs.length := by
        obtain ⟨h', _⟩ := List.getElem?_eq_some_iff.1 hk
        rwa [List.length_map, hlen] at h'
      obtain ⟨j, hj, rfl⟩ := p2 k hlt
      rw [List.getElem?_map, hat _ hlt, hcell j hj] at hk
      have : j = i := Option.some.inj hk
      omega
    · intro hi
      refine List.mem_iff_getElem?.2 ⟨pos i, ?_⟩
      rw [List.getElem?_map, hat _ (p1 i hi), hcell i hi]; rfl
  · intro x hx
    obtain ⟨k, hk⟩ := List.mem_iff_getElem?.1 hx
    have hlt : k < mcs.length := by
      obtain ⟨h', _⟩ := List.getElem?_eq_some_iff.1 hk
      omega
    obtain ⟨j, hj, rfl⟩ := p2 k hlt
    rw [hat _ hlt, hcell j hj] at hk
    rw [← Option.some.inj hk]
    dsimp only
    rw [List.getD_eq_getElem?_getD, List.getElem?_eq_getElem hj, Option.getD_some]

/-! ## The kernels -/

theorem Kar.radix {mcs : List (BitVec 32)} (hs : Sorted mcs) {lab : Nat → Nat} {u : Tree} : ∀ {i : Nat}, i + u.leaves ≤ mcs.length → Kar (delta mcs) lab u i →
    u.RadixTree (fun a => (code mcs a).toNat) i := by
  have H := hs.delta
  induction u with
  | leaf q => intro i _ _; trivial
  | node l r ihl ihr =>
    intro i hi hk
    obtain ⟨h, kl, kr⟩ := hk
    rw [leaves_node] at hi h
    have pl := l.leaves_pos
    have pr := r.leaves_pos
    have e1 : l.prims.length = l.leaves := rfl
    have e2 : r.prims.length = r.leaves := rfl
    have hj : i + (l.leaves + r.leaves) - 1 < mcs.length := by omega
    refine ⟨?_, ihl (by omega) kl, ?_⟩
    · rw [e1, e2]
      generalize hjj : i + (l.leaves + r.leaves) - 1 = j at *
      rcases Nat.lt_or_ge (delta mcs i j) 32 with hD | hD
      · left
        have hb := h.before hD
        have hr := H.split_right hj h hD
        have eg : i + l.leaves - 1 + 1 = i + l.leaves := by omega
        rw [eg] at hr
        generalize hDD : delta mcs i j = D at *
        have q : ∀ w : BitVec 32, pre (D + 1) w / 2 = pre D w := by
          intro w
          rw [pre, pre, Nat.div_div_eq_div_mul, ← Nat.pow_succ, show (32 - (D + 1)).succ = 32 - D by omega]
        have ne : pre (D + 1) (code mcs i) ≠ pre (D + 1) (code mcs j) := fun h' => by
          have := (le_lz_iff (x := code mcs i) (y := code mcs j) (k := D + 1) (by omega)).2 h'
          rw [delta] at hDD
          omega
        have eqD : pre D (code mcs i) = pre D (code mcs j) := (le_lz_iff (by omega)).1 (by rw [delta] at hDD; omega)
        have mono : pre (D + 1) (code mcs i) ≤ pre (D + 1) (code mcs j) := Nat.div_le_div_right (hs i j (by omega) hj)
        have q1 := q (code mcs i)
        have q2 := q (code mcs j)
        refine ⟨pre D (code mcs i), 32 - (D + 1), ?_, ?_⟩
        · intro a h1 h2
          have c := (H.between i a (i + l.leaves - 1) h1 (by omega) (by omega)).1
          have : pre (D + 1) (code mcs i) = pre (D + 1) (code mcs a) := (le_lz_iff (by omega)).1 (by rw [delta, delta] at c; rw [delta] at hb; omega)
          rw [show (code mcs a).toNat / 2 ^ (32 - (D + 1)) = pre (D + 1) (code mcs a) from rfl]
          omega
        · intro a h1 h2
          have c := (H.between (i + l.leaves) a j h1 (by omega) hj).2
          have : pre (D + 1) (code mcs a) = pre (D + 1) (code mcs j) := (le_lz_iff (by omega)).1 (by rw [delta, delta] at c; rw [delta] at hr; omega)
          rw [show (code mcs a).toNat / 2 ^ (32 - (D + 1)) = pre (D + 1) (code mcs a) from rfl]
          omega
      · right
        have hD : delta mcs i j = 32 := by have := H.le i j; omega
        refine ⟨by have := h.same hD; omega, fun a h1 h2 => ?_⟩
        have c := (H.between i a j h1 (by omega) hj).1
        have := H.le i a
        dsimp only
        rw [lz_max.1 (show delta mcs i a = 32 by omega)]
    · exact ihr (by omega) kr

/-- The tree that the kernels build. -/
theorem ctx_exists {sorted : List (BitVec 32 × Nat)} (hn : 1 < sorted.length) (hs : Sorted (sorted.map (·.1))) :
    ∃ tr : Tree, Ctx (sorted.map (·.1)) (fun i => (sorted.map (·.2)).getD i 0) tr ∧ tr.prims = sorted.map (·.2) ∧
      tr.RadixTree (fun a => (code (sorted.map (·.1)) a).toNat) 0 := by
  have hlen : (sorted.map (·.1)).length = sorted.length := List.length_map ..
  obtain ⟨tr, h1, h2⟩ := hs.delta.tree_exists (fun i => (sorted.map (·.2)).getD i 0) (sorted.length - 1) 0 (by omega)
  refine ⟨tr, ⟨by omega, by omega, h2, hs.delta⟩, ?_, h2.radix hs (by omega)⟩
  rw [h2.prims]
  apply List.ext_getElem?
  intro k
  by_cases hk : k < sorted.length
  · rw [List.getElem?_map, List.getElem?_range' (by omega), Option.map_some, List.getD_eq_getElem?_getD, List.getElem?_map, show 0 + 1 * k = k by omega,
      List.getElem?_map, List.getElem?_eq_getElem hk]
    rfl
  · rw [List.getElem?_eq_none (by simp; omega), List.getElem?_eq_none (by simp; omega)]

/-- What the kernels leave behind. -/
theorem topo_run {sorted : List (BitVec 32 × Nat)} {tr : Tree} (C : Ctx (sorted.map (·.1)) (fun i => (sorted.map (·.2)).getD i 0) tr) {m0 : Mem}
    (hl : ∀ a, (m0 a).length = a.size sorted.length) {r : Option Mem} (h : Topo sorted m0 r) :
    ∃ m, r = some m ∧ S5 (sorted.map (·.1)) (fun i => (sorted.map (·.2)).getD i 0) tr m := by
  have hlen : (sorted.map (·.1)).length = sorted.length := List.length_map ..
  have hn := C.n
  have hi : ∀ k, k < (sorted.map (·.1)).length → (sorted.map (·.2))[k]? = some ((sorted.map (·.2)).getD k 0) := by
    intro k hk
    rw [List.getD_eq_getElem?_getD, List.getElem?_eq_getElem (by rw [List.length_map] at *; omega), Option.getD_some]
  have hl' : Lens (Arr.size (sorted.map (·.1)).length) m0 := fun a => by rw [hlen]; exact hl a
  have init : ∀ {r : Option Mem}, Launch sorted.length (initTask (sorted.map (·.2)) (sorted.length - 1)) m0 r →
      ∃ m, r = some m ∧ S1 (sorted.map (·.1)) (fun i => (sorted.map (·.2)).getD i 0) m := by
    intro r h
    have := init_spec (mcs := sorted.map (·.1)) (lab := fun i => (sorted.map (·.2)).getD i 0) (by omega) hi hl' (r := r)
    rw [hlen] at this
    exact this h
  have topo : ∀ {m : Mem} {r : Option Mem}, S1 (sorted.map (·.1)) (fun i => (sorted.map (·.2)).getD i 0) m →
      Launch (sorted.length - 1) (topoTask (sorted.map (·.1)) (sorted.length - 1)) m r →
      ∃ m', r = some m' ∧ S2 (sorted.map (·.1)) (fun i => (sorted.map (·.2)).getD i 0) tr m' := by
    intro m r hm h
    have := C.topo_spec hm (r := r)
    rw [hlen] at this
    exact this h
  have supp : ∀ {m : Mem} {offs : List Nat} {r : Option Mem}, S2 (sorted.map (·.1)) (fun i => (sorted.map (·.2)).getD i 0) tr m →
      Sparse.ExScan ((m .lDepths).map Int.toNat) offs → Launch sorted.length (suppTask offs m (sorted.length - 1)) m r →
      ∃ m', r = some m' ∧ S3 (sorted.map (·.1)) (fun i => (sorted.map (·.2)).getD i 0) tr m' := by
    intro m offs r hm ho h
    have := C.supp_spec hm (offs_spec hm ho).2 (r := r)
    rw [hlen] at this
    exact this h
  have leaf : ∀ {m m' : Mem} {offs : List Nat} {r : Option Mem}, S2 (sorted.map (·.1)) (fun i => (sorted.map (·.2)).getD i 0) tr m' →
      S3 (sorted.map (·.1)) (fun i => (sorted.map (·.2)).getD i 0) tr m →
      Sparse.ExScan ((m' .lDepths).map Int.toNat) offs → Launch sorted.length (leafTask offs m) m r →
      ∃ m', r = some m' ∧ S4 (sorted.map (·.1)) (fun i => (sorted.map (·.2)).getD i 0) tr m' := by
    intro m m' offs r hm' hm ho h
    have := C.leaf_spec hm (offs_spec hm' ho).2 (r := r)
    rw [hlen] at this
    exact this h
  cases h with
  | init h1 => obtain ⟨_, h, _⟩ := init h1; cases h
  | topo h1 h2 =>
    obtain ⟨_, e, a1⟩ := init h1; cases e
    obtain ⟨_, e, _⟩ := topo a1 h2; cases e
  | supp h1 h2 ho h3 =>
    obtain ⟨_, e, a1⟩ := init h1; cases e
    obtain ⟨_, e, a2⟩ := topo a1 h2; cases e
    obtain ⟨_, e, _⟩ := supp a2 ho h3; cases e
  | leaf h1 h2 ho h3 h4 =>
    obtain ⟨_, e, a1⟩ := init h1; cases e
    obtain ⟨_, e, a2⟩ := topo a1 h2; cases e
    obtain ⟨_, e, a3⟩ := supp a2 ho h3; cases e
    obtain ⟨_, e, _⟩ := leaf a2 a3 ho h4; cases e
  | trunk h1 h2 ho h3 h4 h5 =>
    obtain ⟨_, e, a1⟩ := init h1; cases e
    obtain ⟨_, e, a2⟩ := topo a1 h2; cases e
    obtain ⟨_, e, a3⟩ := supp a2 ho h3; cases e
    obtain ⟨_, e, a4⟩ := leaf a2 a3 ho h4; cases e
    have := C.trunk_spec a4 (offs_spec a2 ho).2 (r := r)
    rw [hlen] at this
    exact this h5

/-- C58: from sorted codes, which may repeat, the kernels never leave their arrays, their loops end, and in whatever order their
writes happen the arrays describe a radix tree of the codes whose leaves are the primitives in the order of their codes. -/
theorem build_topology {B : Type} {sorted : List (BitVec 32 × Nat)} (hn : 2 < sorted.length) (hs : Sorted (sorted.map (·.1))) {m0 : Mem}
    (hl : ∀ a, (m0 a).length = a.size sorted.length) {r : Option Mem} (h : Topo sorted m0 r) :
    ∃ (m : Mem) (tr : Tree), r = some m ∧ (∀ bvs : List B, Layout (ofMem m bvs) tr) ∧ tr.prims = sorted.map (·.2) ∧
      tr.RadixTree (fun a => (code (sorted.map (·.1)) a).toNat) 0 := by
  obtain ⟨tr, C, h1, h2⟩ := ctx_exists (by omega) hs
  obtain ⟨m, rfl, hm⟩ := topo_run C hl h
  exact ⟨m, tr, rfl, C.layout (by rw [List.length_map]; exact hn) hm, h1, h2⟩

/-- The kernels end. -/
theorem build_topology_ends {sorted : List (BitVec 32 × Nat)} (hn : 1 < sorted.length) (hs : Sorted (sorted.map (·.1))) {m0 : Mem}
    (hl : ∀ a, (m0 a).length = a.size sorted.length) : ∃ m, Topo sorted m0 (some m) := by
  obtain ⟨tr, C, _, _⟩ := ctx_exists hn hs
  have key : ∃ r, Topo sorted m0 r := by
    obtain ⟨r1, h1⟩ := launch_exists sorted.length (initTask (sorted.map (·.2)) (sorted.length - 1)) m0
    cases r1 with
    | none => exact ⟨_, .init h1⟩
    | some m1 =>
      obtain ⟨r2, h2⟩ := launch_exists (sorted.length - 1) (topoTask (sorted.map (·.1)) (sorted.length - 1)) m1
      cases r2 with
      | none => exact ⟨_, .topo h1 h2⟩
      | some m2 =>
        obtain ⟨offs, ho⟩ := Sparse.exScan_exists ((m2 .lDepths).map Int.toNat)
        obtain ⟨r3, h3⟩ := launch_exists sorted.length (suppTask offs m2 (sorted.length - 1)) m2
        cases r3 with
        | none => exact ⟨_, .supp h1 h2 ho h3⟩
        | some m3 =>
          obtain ⟨r4, h4⟩ := launch_exists sorted.length (leafTask offs m3) m3
          cases r4 with
          | none => exact ⟨_, .leaf h1 h2 ho h3 h4⟩
          | some m4 =>
            obtain ⟨r5, h5⟩ := launch_exists (sorted.length - 1) (trunkTask offs m4 (sorted.length - 1)) m4
            exact ⟨_, .trunk h1 h2 ho h3 h4 h5⟩
  obtain ⟨r, hr⟩ := key
  obtain ⟨m, rfl, _⟩ := topo_run C hl hr
  exact ⟨m, hr⟩

/-- C58: the hierarchy does not depend on the order of the writes or on what the arrays held before. -/
theorem build_topology_deterministic {B : Type} {sorted : List (BitVec 32 × Nat)} (hn : 1 < sorted.length) (hs : Sorted (sorted.map (·.1))) {m0 m0' : Mem}
    (hl : ∀ a, (m0 a).length = a.size sorted.length) (hl' : ∀ a, (m0' a).length = a.size sorted.length) {r r' : Option Mem} (h : Topo sorted m0 r)
    (h' : Topo sorted m0' r') (bvs : List B) : ∃ m m', r = some m ∧ r' = some m' ∧ ofMem m bvs = ofMem m' bvs := by
  obtain ⟨tr, C, _, _⟩ := ctx_exists hn hs
  obtain ⟨m, rfl, hm⟩ := topo_run C hl h
  obtain ⟨m', rfl, hm'⟩ := topo_run C hl' h'
  have hlen : (sorted.map (·.1)).length = sorted.length := List.length_map ..
  have hsz := tr.size_leaves
  have hlv := C.leaves
  have hv : ∀ v, v < sorted.length * 2 - 1 → ∃ e ∈ tr.all, e.v = v := by
    intro v hv
    obtain ⟨u, hu⟩ := Tree.sub_exists tr (v := v) (by omega)
    obtain ⟨e, he, h1, _⟩ := ents_exists (x := 0) (p := -1) (b := true) hu
    exact ⟨e, he, h1⟩
  have ext : ∀ a, (∀ k, k < a.size sorted.length → (m a)[k]? = (m' a)[k]?) → m a = m' a := by
    intro a hk
    have l1 := hm.lens a
    have l2 := hm'.lens a
    rw [hlen] at l1 l2
    apply List.ext_getElem?
    intro k
    by_cases hlt : k < a.size sorted.length
    · exact hk k hlt
    · rw [List.getElem?_eq_none (by omega), List.getElem?_eq_none (by omega)]
  refine ⟨m, m', rfl, rfl, ?_⟩
  rw [ofMem, ofMem, ext .parents, ext .levels, ext .lInds, ext .aux]
  · intro k hk
    obtain ⟨e, he, rfl⟩ := hv k hk
    cases hi : e.u.isLeaf with
    | true => rw [hm.prim e he hi, hm'.prim e he hi]
    | false => rw [hm.escape e he hi, hm'.escape e he hi]
  · intro k hk
    obtain ⟨e, he, hi, rfl⟩ := C.leaf_at (k := k) (by rw [hlen]; exact hk)
    rw [hm.lInds e he hi, hm'.lInds e he hi]
  · intro k hk
    obtain ⟨e, he, rfl⟩ := hv k hk
    rw [hm.levels e he, hm'.levels e he]
  · intro k hk
    obtain ⟨e, he, rfl⟩ := hv k hk
    rcases parent_of he with hroot | ⟨e', h1, h2, h3⟩
    · rw [hroot, hm.root, hm'.root]
    · rw [hm.parent e he e' h1 h2 h3, hm'.parent e he e' h1 h2 h3]

/-- Sorting ends. -/
theorem sort_ends (mcs : List (BitVec 32)) : ∃ sorted, SortRun mcs sorted := by
  let s : Radix.Mem 32 Nat := fun l => match l with
    | .inp i => .elt (mcs.getD i 0) i
    | _ => .elt 0 0
  obtain ⟨s', hr⟩ := Radix.radix_sort_has_run false false mcs.length 0 32 s
  obtain ⟨out, h1, _⟩ := Radix.radix_sort_stable false false mcs.length 0 32 (by decide) (Nat.le_refl _) (fun i => (mcs.getD i 0, i)) s s' (fun _ _ => rfl) hr
  refine ⟨(List.range mcs.length).map out, s, s', fun _ _ => rfl, .inl hr, by simp, fun k hk => ?_⟩
  rw [h1 k hk, List.getD_eq_getElem?_getD, List.getElem?_map, List.getElem?_range hk]
  rfl

/-! ## `build` -/

section
variable {dim : Nat} {T : Type} [LinearOrder T]

/-- C58: after `build` with at least one box, with any codes and in any order of the writes, the hierarchy is ready for queries about
these boxes. -/
theorem build_ready {old : Bvh (Box dim T)} {prims : List (Box dim T)} (h0 : 0 < prims.length) (prim : Nat → Box dim T)
    (hprim : prims = (List.range prims.length).map prim) {r : Refitted (Box dim T)} (h : BuildRun old prims mergeBox r) :
    ∃ t, r = .ok t ∧ Ready t prims.length prim := by
  cases h with
  | empty h => omega
  | few _ h2 => exact ⟨_, rfl, .few (by simp) h2 hprim⟩
  | bad hn hm hs hl ht =>
    obtain ⟨s1, s2, s3, _⟩ := sort_spec hs
    obtain ⟨m, tr, e, _⟩ := build_topology (B := Unit) (by omega) s2 (by rw [s1, hm]; exact hl) ht
    cases e
  | refit hn hm hs hl ht hb hr =>
    obtain ⟨s1, s2, s3, _⟩ := sort_spec hs
    obtain ⟨m, tr, e, h1, h2, _⟩ := build_topology (B := Box dim T) (by omega) s2 (by rw [s1, hm]; exact hl) ht
    cases e
    have hsz := tr.size_leaves
    have hpl : tr.leaves = prims.length := by rw [Tree.leaves, h2, List.length_map]; omega
    obtain ⟨bvs, e, hrd⟩ := refit_ready (.inr ⟨tr, h1 _, by rw [ofMem]; dsimp only; omega, by rw [h2, ← hm]; exact s3⟩) prim hprim hr
    exact ⟨_, e, hrd⟩

/-- C50, C58: a query after `build` finds exactly the boxes that overlap. -/
theorem build_then_query {old : Bvh (Box dim T)} {prims : List (Box dim T)} (h0 : 0 < prims.length) (prim : Nat → Box dim T)
    (hprim : prims = (List.range prims.length).map prim) {r : Refitted (Box dim T)} (h : BuildRun old prims mergeBox r) (bv : Box dim T)
    {fuel : Nat} (hf : 2 * prims.length + 2 ≤ fuel) :
    ∃ (t : Bvh (Box dim T)) (found : List Nat), r = .ok t ∧ found.Perm ((List.range prims.length).filter fun p => overlaps (prim p) bv) ∧
      iterNeighbors t bv collect fuel [] = .ok (found.map fun p : Nat => (p : Int)) := by
  obtain ⟨t, e, hrd⟩ := build_ready h0 prim hprim h
  obtain ⟨found, h1, h2⟩ := iter_neighbors_all hrd bv hf
  refine ⟨t, found, e, h1, ?_⟩
  rw [h2, calls_collect, List.nil_append]

/-- C58: `build` ends. -/
theorem build_ends (old : Bvh (Box dim T)) (prims : List (Box dim T)) : ∃ r, BuildRun old prims mergeBox r := by
  rcases Nat.lt_or_ge 2 prims.length with hn | hn
  · obtain ⟨b, hb⟩ : ∃ b, prims[0]? = some b := ⟨_, List.getElem?_eq_getElem (by omega)⟩
    let prim : Nat → Box dim T := fun i => prims.getD i b
    obtain ⟨sorted, hs⟩ := sort_ends (List.replicate prims.length 0)
    obtain ⟨s1, s2, s3, _⟩ := sort_spec hs
    rw [List.length_replicate] at s1 s3
    have hl : ∀ a : Arr, ((fun a => List.replicate (a.size prims.length) 0 : Mem) a).length = a.size prims.length := fun a => List.length_replicate
    obtain ⟨m, ht⟩ := build_topology_ends (by omega) s2 (by rw [s1]; exact hl)
    obtain ⟨_, tr, e, h1, h2, _⟩ := build_topology (B := Box dim T) (by omega) s2 (by rw [s1]; exact hl) ht
    cases e
    have hsz := tr.size_leaves
    have hpl : tr.leaves = prims.length := by rw [Tree.leaves, h2, List.length_map]; omega
    obtain ⟨r, hr⟩ := refit_ends (prims := prims) (prim := prim) (merge := mergeBox) (h1 (List.replicate (prims.length * 2 - 1) b))
      (by rw [ofMem]; dsimp only; rw [List.length_replicate]; omega) (fun p hp => by
        have : p < prims.length := List.mem_range.1 (s3.mem_iff.1 (h2 ▸ hp))
        show prims[p]? = some (prims.getD p b)
        rw [List.getD_eq_getElem?_getD, List.getElem?_eq_getElem this, Option.getD_some]) hpl.symm
    exact ⟨r, .refit hn (by rw [List.length_replicate]) hs hl ht (by rw [List.length_replicate]) hr⟩
  · rcases Nat.eq_zero_or_pos prims.length with h0 | h0
    · exact ⟨_, .empty h0⟩
    · exact ⟨_, .few h0 hn⟩

/-- A `build` without primitives does nothing. -/
theorem build_empty {old : Bvh (Box dim T)} {r : Refitted (Box dim T)} (h : BuildRun old [] mergeBox r) : r = .ok old := by
  cases h with
  | empty _ => rfl
  | few h => exact absurd h (Nat.lt_irrefl _)
  | bad h => exact absurd h (Nat.not_lt_zero _)
  | refit h => exact absurd h (Nat.not_lt_zero _)

end

/-! ## Examples -/

/-- The hypotheses are met: `build` for three intervals ends, and a query for `[1, 5]` afterwards finds all of them. -/
example : ∃ (t : Bvh (Box 1 Int)) (found : List Nat), BuildRun exBvh [exPrim 0, exPrim 1, exPrim 2] mergeBox (.ok t) ∧ found.Perm [0, 1, 2] ∧
    iterNeighbors t ⟨fun _ => 1, fun _ => 5⟩ collect 8 [] = .ok (found.map fun p : Nat => (p : Int)) := by
  obtain ⟨r, hr⟩ := build_ends exBvh [exPrim 0, exPrim 1, exPrim 2]
  obtain ⟨t, found, rfl, h1, h2⟩ := build_then_query (prims := [exPrim 0, exPrim 1, exPrim 2]) (by decide) exPrim rfl hr ⟨fun _ => 1, fun _ => 5⟩ (fuel := 8) (by decide)
  exact ⟨t, found, hr, h1.trans (List.Perm.of_eq (by decide)), h2⟩

/-- `build` without primitives leaves the old hierarchy: after three boxes and then none, a query still finds the old ones. -/
theorem build_empty_violated : ∃ (t t' : Bvh (Box 1 Int)) (found : List Nat), BuildRun exBvh [exPrim 0, exPrim 1, exPrim 2] mergeBox (.ok t) ∧
    BuildRun t [] mergeBox (.ok t') ∧ found.Perm [0, 1, 2] ∧
    iterNeighbors t' ⟨fun _ => 1, fun _ => 5⟩ collect 8 [] = .ok (found.map fun p : Nat => (p : Int)) := by
  obtain ⟨r, hr⟩ := build_ends exBvh [exPrim 0, exPrim 1, exPrim 2]
  obtain ⟨t, found, rfl, h1, h2⟩ := build_then_query (prims := [exPrim 0, exPrim 1, exPrim 2]) (by decide) exPrim rfl hr ⟨fun _ => 1, fun _ => 5⟩ (fuel := 8) (by decide)
  exact ⟨t, t, found, hr, .empty rfl, h1.trans (List.Perm.of_eq (by decide)), h2⟩

/-- Sorted codes with repetitions: the range and the split of every inner node. -/
example : (List.range 4).map (fun x => (rangeOf [1#32, 4#32, 4#32, 4#32, 9#32] x).bind fun (i, j) =>
    (splitOf [1#32, 4#32, 4#32, 4#32, 9#32] 4 i j).map fun g => (i, j, g)) =
    [some (0, 4, 3), some (1, 3, 1), some (2, 3, 2), some (0, 3, 0)] := by decide +kernel

end Verif.Bvh
