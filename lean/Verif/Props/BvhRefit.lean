import Mathlib.Data.Int.Order.Basic
import Verif.Proof.BvhRefit
import Verif.Props.Bvh
/-! Properties of the refit of bounding volume hierarchies: C51. -/
namespace Verif.Bvh

variable {B : Type} {t : Bvh B} {tr : Tree} {prim : Nat → B} {merge : B → B → B} {prims : List B}

/-- Every state of a run satisfies the invariant. -/
theorem Refits.inv (hl : Layout t tr) (hprim : ∀ p ∈ tr.prims, prims[p]? = some (prim p)) {n : Nat} {s : Refit B} {r : Option (Refit B)}
    (h : Refits t prims merge n s r) : ∀ st, Inv t tr prim merge n s st → ∃ s' st', r = some s' ∧ Inv t tr prim merge n s' st' := by
  induction h with
  | refl s => exact fun st hi => ⟨s, st, rfl, hi⟩
  | step k hk hs _ ih =>
    intro st hi
    obtain ⟨s', st', h1, h2, _, _⟩ := hi.step hl hprim hk
    rw [hs] at h1
    cases h1
    exact ih st' h2
  | bad k hk hs =>
    intro st hi
    obtain ⟨s', st', h1, _⟩ := hi.step hl hprim hk
    rw [hs] at h1
    cases h1

/-- C51: whatever the order of the steps of the tasks, `refit` accesses nothing out of bounds and leaves at every node the box merged from
the boxes of the primitives below it, as the tree says; nothing else changes. -/
theorem refit_exact (hl : Layout t tr) (hb : t.bvs.length = tr.size) (hprim : ∀ p ∈ tr.prims, prims[p]? = some (prim p))
    (hn : prims.length = tr.prims.length) {r : Refitted B} (h : RefitRun t prims merge r) :
    ∃ bvs, r = .ok { t with bvs := bvs } ∧ bvs.length = tr.size ∧ ∀ v u, tr.sub v = some u → bvs[v]? = some (u.box prim merge) := by
  have hlen : t.leafInds.length = tr.prims.length := by rw [hl.leafInds, Tree.leafPos_length]
  obtain ⟨st, hi, _⟩ := Inv.init (prim := prim) (merge := merge) hl hb
  cases h with
  | throws hne => exact absurd (hn.trans hlen.symm) hne
  | few _ h2 =>
    have := hl.three
    omega
  | bad _ _ hr =>
    obtain ⟨s', st', e, _⟩ := Refits.inv hl hprim hr st hi
    cases e
  | @ok s _ _ hr hf =>
    obtain ⟨s', st', e, hi'⟩ := Refits.inv hl hprim hr st hi
    cases e
    exact ⟨s.bvs, rfl, hi'.lenB, fun v u hv => (hi'.final hf v u hv).1⟩

/-- From every state that is reached the tasks can end, after at most `todo` steps. -/
theorem Inv.ends (hl : Layout t tr) (hprim : ∀ p ∈ tr.prims, prims[p]? = some (prim p)) {n : Nat} : ∀ (m : Nat) (s : Refit B) (st : Nat → Mark),
    Inv t tr prim merge n s st → todo tr n s st ≤ m → ∃ s', Refits t prims merge n s (some s') ∧ s'.finished n := by
  intro m
  induction m with
  | zero =>
    intro s st hi hm
    refine ⟨s, .refl s, fun k hk => ?_⟩
    obtain ⟨_, _, _, _, h, _⟩ := hi.step hl hprim hk
    cases hpc : s.pc k with
    | done => rfl
    | _ => exact absurd (h (by rw [hpc]; simp)) (by omega)
  | succ m ih =>
    intro s st hi hm
    by_cases hf : s.finished n
    · exact ⟨s, .refl s, hf⟩
    · obtain ⟨k, hk, hpc⟩ : ∃ k, k < n ∧ s.pc k ≠ .done := by
        apply Classical.byContradiction
        intro hc
        exact hf fun k hk => Classical.byContradiction fun h => hc ⟨k, hk, h⟩
      obtain ⟨s', st', h1, h2, h3, _⟩ := hi.step hl hprim hk
      obtain ⟨s'', h4, h5⟩ := ih s' st' h2 (by have := h3 hpc; omega)
      exact ⟨s'', .step k hk h1 h4, h5⟩

/-- C51: `refit` can end; no schedule in which the tasks make steps goes on for ever (`Inv.step`: every step of a task that has not ended
decreases `todo`). -/
theorem refit_ends (hl : Layout t tr) (hb : t.bvs.length = tr.size) (hprim : ∀ p ∈ tr.prims, prims[p]? = some (prim p))
    (hn : prims.length = tr.prims.length) : ∃ r, RefitRun t prims merge r := by
  have hlen : t.leafInds.length = tr.prims.length := by rw [hl.leafInds, Tree.leafPos_length]
  obtain ⟨st, hi, _⟩ := Inv.init (prim := prim) (merge := merge) hl hb
  obtain ⟨s', h1, h2⟩ := Inv.ends (prims := prims) hl hprim _ _ st hi (Nat.le_refl _)
  have := hl.three
  exact ⟨_, .ok (hn.trans hlen.symm) (by omega) h1 h2⟩

/-- C51: a call with another number of boxes throws and does nothing else. -/
theorem refit_throws (hn : prims.length ≠ t.leafInds.length) {r : Refitted B} : RefitRun t prims merge r ↔ r = .throws := by
  refine ⟨fun h => ?_, fun h => h ▸ .throws hn⟩
  cases h with
  | throws _ => rfl
  | few h => exact absurd h hn
  | bad h => exact absurd h hn
  | ok h => exact absurd h hn

/-! ## No races -/

/-- The cell of the array of boxes that the next step of task `k` accesses. -/
def touches (t : Bvh B) (s : Refit B) (k : Nat) : Option Int :=
  match s.pc k with
  | .start => t.leafInds[k]?.map fun c : Nat => (c : Int)
  | .arrive _ => none
  | .left v => some (v + 1)
  | .right v _ => rightChild t v
  | .put v _ => some v
  | .done => none

/-- Steps of the tasks, and the cells that they write. -/
inductive Trace (t : Bvh B) (prims : List B) (merge : B → B → B) (n : Nat) : Refit B → List Int → Refit B → Prop
  | refl (s : Refit B) : Trace t prims merge n s [] s
  | step {s s' s'' : Refit B} {w : List Int} (k : Nat) : k < n → s.step t prims merge k = some s' → Trace t prims merge n s' w s'' →
      Trace t prims merge n s ((writes t s k).toList ++ w) s''

theorem Trace.count (hl : Layout t tr) (hprim : ∀ p ∈ tr.prims, prims[p]? = some (prim p)) {n : Nat} {s s' : Refit B} {w : List Int}
    (h : Trace t prims merge n s w s') : ∀ st, Inv t tr prim merge n s st → ∃ st', Inv t tr prim merge n s' st' ∧
      ∀ d : Nat, ((st d).made → (st' d).made) ∧ (((st' d).made ∧ ¬ (st d).made) → w.count (d : Int) = 1) ∧
        (((st d).made ∨ ¬ (st' d).made) → w.count (d : Int) = 0) := by
  induction h with
  | refl s =>
    intro st hi
    exact ⟨st, hi, fun d => ⟨id, fun ⟨a, b⟩ => absurd a b, fun _ => rfl⟩⟩
  | @step s s1 s2 w k hk hs _ ih =>
    intro st hi
    obtain ⟨s', st', h1, h2, _, h3⟩ := hi.step hl hprim hk
    rw [hs] at h1
    cases h1
    obtain ⟨st'', i1, i2⟩ := ih st' h2
    refine ⟨st'', i1, fun d => ?_⟩
    obtain ⟨a1, a2, a3⟩ := i2 d
    obtain ⟨b1, b2⟩ := h3 d
    rw [List.count_append]
    by_cases hw : writes t s k = some (d : Int)
    · have e : (writes t s k).toList.count (d : Int) = 1 := by rw [hw]; simp
      have hm := b1.2 (.inr hw)
      have hnm := b2 hw
      rw [e, a3 (.inl hm)]
      exact ⟨fun h => absurd h hnm, fun _ => rfl, fun h => h.elim (fun h => absurd h hnm) (fun h => absurd (a1 hm) h)⟩
    · have e : (writes t s k).toList.count (d : Int) = 0 := by
        cases hx : writes t s k with
        | none => rfl
        | some x =>
          rw [hx, Option.some.injEq] at hw
          simp [hw]
      have b1' : (st' d).made ↔ (st d).made := ⟨fun h => (b1.1 h).resolve_right hw, fun h => b1.2 (.inl h)⟩
      rw [e, Nat.zero_add, ← b1']
      exact ⟨a1, a2, a3⟩

/-- C51: in a run to the end every box is written exactly once. -/
theorem refit_writes_once (hl : Layout t tr) (hb : t.bvs.length = tr.size) (hprim : ∀ p ∈ tr.prims, prims[p]? = some (prim p)) {s : Refit B}
    {w : List Int} (h : Trace t prims merge t.leafInds.length ⟨t.bvs, List.replicate t.numNodes 0, fun _ => .start⟩ w s)
    (hf : s.finished t.leafInds.length) {v : Nat} (hv : v < tr.size) : w.count (v : Int) = 1 := by
  obtain ⟨st, hi, hn⟩ := Inv.init (prim := prim) (merge := merge) hl hb
  obtain ⟨st', h1, h2⟩ := h.count hl hprim st hi
  obtain ⟨u, hu⟩ := tr.sub_exists hv
  exact (h2 v).2.1 ⟨(h1.final hf v u hu).2, hn v⟩

/-- C51: no two tasks are ever about to access the same box, one of them to write it (with sequentially consistent steps). -/
theorem refit_race_free (hl : Layout t tr) (hb : t.bvs.length = tr.size) (hprim : ∀ p ∈ tr.prims, prims[p]? = some (prim p)) {s : Refit B}
    (h : Refits t prims merge t.leafInds.length ⟨t.bvs, List.replicate t.numNodes 0, fun _ => .start⟩ (some s))
    {i j : Nat} (hi : i < t.leafInds.length) (hj : j < t.leafInds.length) (hij : i ≠ j) {c : Int} (hc : writes t s i = some c) :
    touches t s j ≠ some c := by
  obtain ⟨st0, hi0, _⟩ := Inv.init (prim := prim) (merge := merge) hl hb
  obtain ⟨s', st, e, hinv⟩ := Refits.inv hl hprim h st0 hi0
  cases e
  -- the cell is that of a node which task `i` makes
  have h1 : ∃ v : Nat, c = v ∧ v < tr.size ∧ st v = .busy i := by
    have hk := hinv.task i hi
    unfold writes at hc
    cases hpc : s.pc i with
    | start =>
      rw [hpc] at hk hc
      obtain ⟨v, hv, hs⟩ := hk
      simp only [hv, Option.map_some] at hc
      obtain ⟨p, hp⟩ := hl.leaf_at hv
      exact ⟨v, (Option.some.inj hc).symm, Tree.sub_lt hp, hs⟩
    | put w b =>
      rw [hpc] at hk hc
      obtain ⟨v, l, r, e, hv, hs, _⟩ := hk
      exact ⟨v, by rw [← Option.some.inj hc, e], Tree.sub_lt hv, hs⟩
    | _ => rw [hpc] at hc; cases hc
  obtain ⟨v, rfl, hv, hs⟩ := h1
  intro ht
  have hk := hinv.task j hj
  unfold touches at ht
  cases hpc : s.pc j with
  | start =>
    rw [hpc] at hk ht
    obtain ⟨w, hw, hs'⟩ := hk
    simp only [hw, Option.map_some] at ht
    have : w = v := by have := Option.some.inj ht; omega
    subst this
    rw [hs] at hs'
    cases hs'
    exact hij rfl
  | arrive w => rw [hpc] at ht; cases ht
  | left w =>
    rw [hpc] at hk ht
    obtain ⟨w, l, r, rfl, hw, hs'⟩ := hk
    have hkid := (hinv.idle w l r hw).1 (by rw [hs']; simp)
    have : w + 1 = v := by have := Option.some.inj ht; omega
    rw [← this, hkid.1] at hs
    cases hs
  | right w b =>
    rw [hpc] at hk ht
    obtain ⟨w, l, r, rfl, hw, hs', _⟩ := hk
    have hkid := (hinv.idle w l r hw).1 (by rw [hs']; simp)
    dsimp only at ht
    rw [hl.right hw] at ht
    have : w + 1 + l.size = v := by have := Option.some.inj ht; omega
    rw [← this, hkid.2] at hs
    cases hs
  | put w b =>
    rw [hpc] at hk ht
    obtain ⟨w, l, r, rfl, hw, hs', _⟩ := hk
    have : w = v := by have := Option.some.inj ht; omega
    subst this
    rw [hs] at hs'
    cases hs'
    exact hij rfl
  | done => rw [hpc] at ht; cases ht

/-! ## Queries after a refit -/

section
variable {dim : Nat} {T : Type} [LinearOrder T]

/-- The boxes are right as far as the numbers of primitives and nodes go. -/
def Built (t : Bvh (Box dim T)) (n : Nat) : Prop :=
  (t.leafInds.length = n ∧ n ≤ 2) ∨ ∃ tr, Layout t tr ∧ t.bvs.length = tr.size ∧ tr.prims.Perm (List.range n)

theorem Ready.built {t : Bvh (Box dim T)} {n : Nat} {prim : Nat → Box dim T} (h : Ready t n prim) (hb : t.bvs.length = t.numNodes) : Built t n := by
  cases h with
  | few h1 h2 _ => exact .inl ⟨h1, h2⟩
  | tree tr hl _ hp => exact .inr ⟨tr, hl, by rw [hb, hl.size], hp⟩

theorem min_min (a : T) {b c : T} (h : b ≤ c) : minOf (minOf a b) c = a ∨ minOf (minOf a b) c = b := by
  by_cases h1 : b < a
  · rw [show minOf a b = b from if_pos h1]
    exact .inr (if_neg (not_lt_of_ge h))
  · rw [show minOf a b = a from if_neg h1]
    exact .inl (if_neg (not_lt_of_ge (le_trans (le_of_not_gt h1) h)))

theorem max_max (a : T) {b c : T} (h : b ≤ c) : maxOf (maxOf a b) c = a ∨ maxOf (maxOf a b) c = c := by
  by_cases h2 : maxOf a b < c
  · exact .inr (if_pos h2)
  · rw [show maxOf (maxOf a b) c = maxOf a b from if_neg h2]
    by_cases h1 : a < b
    · rw [show maxOf a b = b from if_pos h1] at h2 ⊢
      exact .inr (le_antisymm h (le_of_not_gt h2))
    · exact .inl (if_neg h1)

/-- C51: the merged box is the smallest that contains the boxes of the primitives below the node. -/
theorem box_union (prim : Nat → Box dim T) (u : Tree) (hne : ∀ p ∈ u.prims, ∀ d, (prim p).lo d ≤ (prim p).hi d) (d : Fin dim) :
    (∀ p ∈ u.prims, (u.box prim mergeBox).lo d ≤ (prim p).lo d ∧ (prim p).hi d ≤ (u.box prim mergeBox).hi d) ∧
    (∃ p ∈ u.prims, (u.box prim mergeBox).lo d = (prim p).lo d) ∧ ∃ p ∈ u.prims, (u.box prim mergeBox).hi d = (prim p).hi d := by
  induction u with
  | leaf p =>
    refine ⟨fun q hq => ?_, ⟨p, by simp [Tree.prims], rfl⟩, ⟨p, by simp [Tree.prims], rfl⟩⟩
    rw [Tree.prims, List.mem_singleton] at hq
    subst hq
    exact ⟨le_refl _, le_refl _⟩
  | node l r ihl ihr =>
    simp only [Tree.prims, List.mem_append] at hne ⊢
    obtain ⟨l1, ⟨pl, hpl, l2⟩, ⟨ql, hql, l3⟩⟩ := ihl fun p hp => hne p (.inl hp)
    obtain ⟨r1, ⟨pr, hpr, r2⟩, ⟨qr, hqr, r3⟩⟩ := ihr fun p hp => hne p (.inr hp)
    obtain ⟨c1, c2⟩ := mergeBox_contains (l.box prim mergeBox) (r.box prim mergeBox)
    have hr : (r.box prim mergeBox).lo d ≤ (r.box prim mergeBox).hi d := by
      rw [r2]
      exact le_trans (hne pr (.inr hpr) d) (r1 pr hpr).2
    refine ⟨?_, ?_, ?_⟩
    · rintro p (hp | hp)
      · exact ⟨le_trans (c1 d).1 (l1 p hp).1, le_trans (l1 p hp).2 (c1 d).2⟩
      · exact ⟨le_trans (c2 d).1 (r1 p hp).1, le_trans (r1 p hp).2 (c2 d).2⟩
    · rcases min_min ((l.box prim mergeBox).lo d) hr with h | h
      · exact ⟨pl, .inl hpl, h.trans l2⟩
      · exact ⟨pr, .inr hpr, h.trans r2⟩
    · rcases max_max ((l.box prim mergeBox).hi d) hr with h | h
      · exact ⟨ql, .inl hql, h.trans l3⟩
      · exact ⟨qr, .inr hqr, h.trans r3⟩

/-- C51: after `refit` with the right number of boxes the hierarchy is ready for queries about these boxes. -/
theorem refit_ready {t : Bvh (Box dim T)} {prims : List (Box dim T)} (h : Built t prims.length) (prim : Nat → Box dim T)
    (hprim : prims = (List.range prims.length).map prim) {r : Refitted (Box dim T)} (hr : RefitRun t prims mergeBox r) :
    ∃ bvs, r = .ok { t with bvs := bvs } ∧ Ready { t with bvs := bvs } prims.length prim := by
  rcases h with ⟨h1, h2⟩ | ⟨tr, hl, hb, hp⟩
  · cases hr with
    | throws h => exact absurd h1.symm h
    | few _ _ => exact ⟨prims, rfl, .few h1 h2 hprim⟩
    | bad _ h => omega
    | ok _ h => omega
  · have hget : ∀ p ∈ tr.prims, prims[p]? = some (prim p) := by
      intro p hm
      have := List.mem_range.1 (hp.mem_iff.1 hm)
      have e : prims[p]? = ((List.range prims.length).map prim)[p]? := by rw [← hprim]
      rw [e, List.getElem?_map, List.getElem?_range this]; rfl
    have hlen : prims.length = tr.prims.length := by rw [hp.length_eq, List.length_range]
    obtain ⟨bvs, e, h1, h2⟩ := refit_exact hl hb hget hlen hr
    refine ⟨bvs, e, .tree tr ⟨hl.size, hl.big, hl.leafInds, hl.levels, hl.prim, hl.escape, hl.root, hl.parentL, hl.parentR⟩ ⟨?_, ?_⟩ hp⟩
    · exact fun v p hv => h2 v _ hv
    · intro v l r hv
      obtain ⟨g1, g2⟩ := Tree.sub_node hv
      obtain ⟨c1, c2⟩ := mergeBox_contains (l.box prim mergeBox) (r.box prim mergeBox)
      exact ⟨_, _, _, h2 v _ hv, h2 _ _ g1, h2 _ _ g2, c1, c2⟩

/-- C50, C51: a query after a refit finds exactly the boxes given to `refit` that overlap. -/
theorem refit_then_query {t : Bvh (Box dim T)} {prims : List (Box dim T)} (h : Built t prims.length) (prim : Nat → Box dim T)
    (hprim : prims = (List.range prims.length).map prim) {r : Refitted (Box dim T)} (hr : RefitRun t prims mergeBox r) (bv : Box dim T)
    {fuel : Nat} (hf : 2 * prims.length + 2 ≤ fuel) :
    ∃ (t' : Bvh (Box dim T)) (found : List Nat), r = .ok t' ∧ found.Perm ((List.range prims.length).filter fun p => overlaps (prim p) bv) ∧
      iterNeighbors t' bv collect fuel [] = .ok (found.map fun p : Nat => (p : Int)) := by
  obtain ⟨bvs, e, hrd⟩ := refit_ready h prim hprim hr
  obtain ⟨found, h1, h2⟩ := iter_neighbors_all hrd bv hf
  refine ⟨_, found, e, h1, ?_⟩
  rw [h2, calls_collect, List.nil_append]

end

/-! ## An example -/

/-- The tree `((0, 2), 1)` over the intervals `[0, 1]`, `[5, 6]`, `[1, 3]`, before its boxes are computed. -/
def exTree : Tree := .node (.node (.leaf 0) (.leaf 2)) (.leaf 1)

def exPrim : Nat → Box 1 Int
  | 0 => ⟨fun _ => 0, fun _ => 1⟩
  | 1 => ⟨fun _ => 5, fun _ => 6⟩
  | _ => ⟨fun _ => 1, fun _ => 3⟩

def exBvh : Bvh (Box 1 Int) :=
  ⟨List.replicate 5 (exPrim 0), [-1, 0, 1, 1, 0], [2, 1, 0, 0, 0], [2, 3, 4], [-1, 4, 0, 2, 1]⟩

theorem exLayout : Layout exBvh exTree := by
  have cases5 : ∀ v, v < exTree.size → v = 0 ∨ v = 1 ∨ v = 2 ∨ v = 3 ∨ v = 4 := by
    intro v h
    have : exTree.size = 5 := rfl
    omega
  refine ⟨rfl, by decide, rfl, ?_, ?_, ?_, rfl, ?_, ?_⟩
  · intro v u h
    rcases cases5 v (Tree.sub_lt h) with rfl | rfl | rfl | rfl | rfl <;> (cases h; rfl)
  · intro v p h
    rcases cases5 v (Tree.sub_lt h) with rfl | rfl | rfl | rfl | rfl <;> (cases h; try rfl)
  · intro v l r h
    rcases cases5 v (Tree.sub_lt h) with rfl | rfl | rfl | rfl | rfl <;> (cases h; try rfl)
  · intro v l r h
    rcases cases5 v (Tree.sub_lt h) with rfl | rfl | rfl | rfl | rfl <;> (cases h; try rfl)
  · intro v l r h
    rcases cases5 v (Tree.sub_lt h) with rfl | rfl | rfl | rfl | rfl <;> (cases h; try rfl)

theorem exBuilt : Built exBvh 3 := .inr ⟨exTree, exLayout, rfl, by decide⟩

/-- The hypotheses of the theorems are met: `refit` ends, and a query for `[1, 5]` afterwards finds all, a query for `[2, 4]` primitive 2 only. -/
example : ∃ t', RefitRun exBvh [exPrim 0, exPrim 1, exPrim 2] mergeBox (.ok t') ∧ Ready t' 3 exPrim := by
  obtain ⟨r, hr⟩ := refit_ends (prims := [exPrim 0, exPrim 1, exPrim 2]) (prim := exPrim) (merge := mergeBox) exLayout rfl (by
    intro p hp
    have : p = 0 ∨ p = 2 ∨ p = 1 := by simpa [exTree, Tree.prims] using hp
    rcases this with rfl | rfl | rfl <;> rfl) rfl
  obtain ⟨bvs, rfl, h⟩ := refit_ready exBuilt exPrim rfl hr
  exact ⟨_, hr, h⟩

example : (List.range 3).filter (fun p => overlaps (exPrim p) ⟨fun _ => 2, fun _ => 4⟩) = [2] := by decide

end Verif.Bvh
