import Verif.Model.BvhBuildRefit
import Verif.Props.BvhBuild
/-! Properties of `buildRefit`: C64. -/
namespace Verif.Bvh
variable {B : Type}

/-! Only comparisons of the split locations matter. -/

theorem climb_congr (prims : List B) (inds : List Nat) (merge : B → B → B) {s1 s2 : List Nat} (h : ∀ l r, isRight s1 l r = isRight s2 l r) (nt : Int) :
    ∀ fuel cur s, climb prims inds merge s1 nt fuel cur s = climb prims inds merge s2 nt fuel cur s := by
  intro fuel
  induction fuel with
  | zero => intro cur s; rfl
  | succ n ih => intro cur s; rw [climb, climb]; simp only [ascend, h, ih]

theorem refitFrom_congr (prims : List B) (merge : B → B → B) (inds : List Nat) {s1 s2 : List Nat} (h : ∀ l r, isRight s1 l r = isRight s2 l r) (g : Int) (b : B) :
    refitFrom prims merge inds s1 g b = refitFrom prims merge inds s2 g b := by
  have : topoRefitTask prims inds merge s1 (inds.length - 1) = topoRefitTask prims inds merge s2 (inds.length - 1) := by
    funext s k
    simp only [topoRefitTask, h, climb_congr prims inds merge h]
  simp only [refitFrom, this]

theorem isRight_three {x y x' y' z : Nat} (hx : x < z) (hy : y < z) (hx' : x' < z) (hy' : y' < z) (h1 : x < y ↔ x' < y') (h2 : y < x ↔ y' < x') (l r : Int) :
    isRight [x, y, z] l r = isRight [x', y', z] l r := by
  have key : ∀ l r : Nat, isRight [x, y, z] l r = isRight [x', y', z] l r := by
    intro l r
    simp only [isRight, at?, Int.natCast_nonneg, if_true, Int.toNat_natCast]
    match l, r with
    | 0, 0 | 1, 1 | 2, 2 => simp
    | 0, 1 | 1, 0 => simp [h1, h2]
    | 0, 2 | 1, 2 => simp [hx, hx', hy, hy']
    | 2, 0 | 2, 1 => simp; omega
    | _ + 3, _ => simp
    | 0, _ + 3 | 1, _ + 3 | 2, _ + 3 => simp
  rcases Int.lt_or_le l 0 with hl | hl
  · simp [isRight, show ¬ 0 ≤ l by omega]
  · obtain ⟨l, rfl⟩ := Int.eq_ofNat_of_zero_le hl
    rcases Int.lt_or_le r 0 with hr | hr
    · have : ∀ s : List Nat, at? s r = none := fun s => if_neg (by omega)
      simp only [isRight, this, Option.map_none, Option.bind_none]
      simp
    · obtain ⟨r, rfl⟩ := Int.eq_ofNat_of_zero_le hr
      exact key l r

/-- Boxes as trees of merges. -/
abbrev leaves3 : List Tree := [.leaf 0, .leaf 1, .leaf 2]

/-- The right result for three primitives the last two of which are the nearest. -/
def want3 : Bvh Tree :=
  ⟨[.node (.leaf 0) (.node (.leaf 1) (.leaf 2)), .leaf 0, .node (.leaf 1) (.leaf 2), .leaf 1, .leaf 2], [-1, 0, 0, 2, 2], [1, 0, 1, 0, 0], [1, 3, 4], [-1, 0, -1, 1, 2]⟩

theorem want3_layout : Layout want3 (.node (.leaf 0) (.node (.leaf 1) (.leaf 2))) := by
  refine ⟨rfl, by decide, rfl, ?_, ?_, ?_, rfl, ?_, ?_⟩
  · intro v u h
    match v, h with
    | 0, h | 1, h | 2, h | 3, h | 4, h => cases h; rfl
    | v + 5, h => simp [Tree.sub, Tree.size] at h
  · intro v p h
    match v, h with
    | 0, h | 1, h | 2, h | 3, h | 4, h => cases h <;> rfl
    | v + 5, h => simp [Tree.sub, Tree.size] at h
  all_goals
    intro v l r h
    match v, h with
    | 0, h | 1, h | 2, h | 3, h | 4, h => cases h <;> rfl
    | v + 5, h => simp [Tree.sub, Tree.size] at h

def fields {B : Type} (t : Bvh B) : List B × List Int × List Nat × List Nat × List Int := (t.bvs, t.parents, t.levels, t.leafInds, t.aux)

theorem fields_inj {t t' : Option (Bvh B)} (h : t.map fields = t'.map fields) : t = t' := by
  rcases t with _ | ⟨a, b, c, d, e⟩ <;> rcases t' with _ | ⟨a', b', c', d', e'⟩ <;> simp_all [fields]

theorem three_left : (refitFrom leaves3 .node [0, 1, 2] [0, 1, 33] 0 (.leaf 0)).map fields = none := by decide +kernel
theorem three_right : (refitFrom leaves3 .node [0, 1, 2] [1, 0, 33] 0 (.leaf 0)).map fields = some (fields want3) := by decide +kernel
theorem three_equal : (refitFrom leaves3 .node [0, 1, 2] [0, 0, 33] 0 (.leaf 0)).map fields = some (fields want3) := by decide +kernel

theorem splits_three (c0 c1 c2 : BitVec 32) (p0 p1 p2 : Nat) : (List.range [(c0, p0), (c1, p1), (c2, p2)].length).map (splitAt ([(c0, p0), (c1, p1), (c2, p2)].map (·.1))) =
    [32 - countLz (c0 ^^^ c1), 32 - countLz (c1 ^^^ c2), 33] := by rfl

/-- C64, violated: if the first two of three primitives are the nearest by their codes, `buildRefit` accesses an array out of bounds:
the root is not the first inner node, and the position of the parent of the root, number -1, is looked up. -/
theorem build_refit_three_violated (c0 c1 c2 : BitVec 32) (h : countLz (c1 ^^^ c2) < countLz (c0 ^^^ c1)) :
    buildRefit leaves3 .node [(c0, 0), (c1, 1), (c2, 2)] 0 (.leaf 0) = none := by
  have := countLz_le (c0 ^^^ c1)
  rw [buildRefit, splits_three]
  refine (refitFrom_congr _ _ _ (isRight_three (x' := 0) (y' := 1) ?_ ?_ ?_ ?_ ?_ ?_) _ _).trans (fields_inj (t' := none) three_left) <;> omega

/-- The codes 0, 1, 2, on which `build` succeeds. -/
theorem build_refit_violated : buildRefit leaves3 .node [(0, 0), (1, 1), (2, 2)] 0 (.leaf 0) = none ∧ Sorted [0#32, 1#32, 2#32] ∧
    ∀ m0 : Mem, (∀ a, (m0 a).length = a.size 3) → ∀ r, Topo [(0, 0), (1, 1), (2, 2)] m0 r → r ≠ none := by
  have hs : Sorted [0#32, 1#32, 2#32] := (show Sorted ([0, 1, 2] : List (BitVec 32)) from by
    intro i j h1 h2
    simp only [List.length_cons, List.length_nil] at h2
    have : i < 3 := by omega
    match i, j with
    | 0, 0 | 0, 1 | 0, 2 | 1, 1 | 1, 2 | 2, 2 => decide
    | 1, 0 | 2, 0 | 2, 1 => omega
    | _, _ + 3 => omega
    | _ + 3, _ => omega)
  refine ⟨build_refit_three_violated 0 1 2 (by decide +kernel), hs, fun m0 hl r hr e => ?_⟩
  obtain ⟨m, _, e', _⟩ := build_topology (B := Nat) (sorted := [(0, 0), (1, 1), (2, 2)]) (by decide) hs hl hr
  rw [e] at e'
  cases e'

/-- C64: with three primitives whose codes are otherwise, the hierarchy is right.  Missing: other numbers of primitives, other
permutations by the sort, concurrent tasks. -/
theorem build_refit_three_partial (c0 c1 c2 : BitVec 32) (h : countLz (c0 ^^^ c1) ≤ countLz (c1 ^^^ c2)) :
    ∃ t, buildRefit leaves3 .node [(c0, 0), (c1, 1), (c2, 2)] 0 (.leaf 0) = some t ∧ Layout t (.node (.leaf 0) (.node (.leaf 1) (.leaf 2))) ∧
      t.bvs = [.node (.leaf 0) (.node (.leaf 1) (.leaf 2)), .leaf 0, .node (.leaf 1) (.leaf 2), .leaf 1, .leaf 2] := by
  have := countLz_le (c1 ^^^ c2)
  refine ⟨want3, ?_, want3_layout, rfl⟩
  rw [buildRefit, splits_three]
  rcases Nat.lt_or_ge (countLz (c0 ^^^ c1)) (countLz (c1 ^^^ c2)) with h' | h'
  · refine (refitFrom_congr _ _ _ (isRight_three (x' := 1) (y' := 0) ?_ ?_ ?_ ?_ ?_ ?_) _ _).trans (fields_inj (t' := some want3) three_right) <;> omega
  · refine (refitFrom_congr _ _ _ (isRight_three (x' := 0) (y' := 0) ?_ ?_ ?_ ?_ ?_ ?_) _ _).trans (fields_inj (t' := some want3) three_equal) <;> omega

/-- The hypotheses hold for the codes 0, 2, 3 and for equal codes. -/
example : countLz (0#32 ^^^ 2#32) ≤ countLz (2#32 ^^^ 3#32) ∧ countLz (5#32 ^^^ 5#32) ≤ countLz (5#32 ^^^ 5#32) := by decide +kernel

end Verif.Bvh
