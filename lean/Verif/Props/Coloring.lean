import Verif.Proof.ColoringLoop
import Mathlib.Order.Nat
import Mathlib.Data.List.Nodup
import Mathlib.Data.List.Perm.Subperm

/-!
Graph colouring: `fast_independent_sets` and `maximum_independent_sets`; C44.

Every theorem is for every order in which the parallel loops visit the rows (`order`), every graph whose
adjacency lists are symmetric and stay within the graph, and every assignment of weights.
-/
namespace Verif.Coloring

variable {W : Type} [LinearOrder W] {g : Graph W} {order order' : Nat → List Nat}

/-- Both functions return, after at most one round per row. -/
theorem coloring_terminates (hg : Ok g) (ho : Orders g order) {fuel : Nat} (hf : g.n < fuel) :
    (fast g order fuel).isSome ∧ (maximum g order fuel).isSome := by
  have := free_le (g := g) (start g).mask
  obtain ⟨r, h, -⟩ := fastLoop_good hg ho fuel 0 (start g) Inv.start (by omega)
  obtain ⟨r', h', -⟩ := maxLoop_good hg ho fuel hf fuel 0 (start g) MInv.start (by omega)
  exact ⟨by rw [fast, h]; rfl, by rw [maximum, h']; rfl⟩

/-- `fast_independent_sets` gives every row a colour between 1 and the number it returns, and uses every one
of these colours. This holds also when weights tie. -/
theorem fast_complete (hg : Ok g) (ho : Orders g order) {fuel : Nat} (hf : g.n < fuel) {s : St} {k : Nat}
    (h : fast g order fuel = some (s, k)) :
    (∀ v < g.n, 1 ≤ s.color v ∧ s.color v ≤ k) ∧ ∀ j, 1 ≤ j → j ≤ k → ∃ v < g.n, s.color v = j := by
  have := free_le (g := g) (start g).mask
  obtain ⟨r, h', hr⟩ := fastLoop_good hg ho fuel 0 (start g) Inv.start (by omega)
  cases (show some (s, k) = some r from h.symm.trans h')
  exact ⟨hr.bounds, hr.used⟩

/-- `fast_independent_sets` gives adjacent rows different colours, if adjacent rows have different weights.
Missing for the full claim: graphs with tied weights, for which it is false (`fast_proper_violated`). -/
theorem fast_proper_partial (hg : Ok g) (ho : Orders g order) (hd : Distinct g) {fuel : Nat} (hf : g.n < fuel) {s : St}
    {k : Nat} (h : fast g order fuel = some (s, k)) :
    ∀ v < g.n, ∀ u ∈ g.adj v, u ≠ v → s.color u ≠ s.color v := by
  have := free_le (g := g) (start g).mask
  obtain ⟨r, h', hr⟩ := fastLoop_good hg ho fuel 0 (start g) Inv.start (by omega)
  cases (show some (s, k) = some r from h.symm.trans h')
  -- no colour equals `top`, since as many rows as colours exist and fewer than `top`
  have htop := hg.top
  have hk : k ≤ g.n := by
    have hsub : List.range' 1 k ⊆ (List.range g.n).map s.color := by
      intro j hj
      rw [List.mem_range'_1] at hj
      obtain ⟨v, hv, e⟩ := hr.used j (by omega) (by omega)
      exact List.mem_map.2 ⟨v, List.mem_range.2 hv, e⟩
    have := (List.subperm_of_subset List.nodup_range' hsub).length_le
    simpa using this
  intro v hv u hu hne
  have a : 1 ≤ s.color v ∧ s.color v ≤ k := hr.bounds v hv
  have b : 1 ≤ s.color u ∧ s.color u ≤ k := hr.bounds u (hg.range v hv u hu)
  exact hr.separate hd v hv u hu hne (show s.color v ≠ g.top by omega) (show s.color u ≠ g.top by omega)

/-- The colours of `fast_independent_sets` do not depend on the order in which the rows are visited. -/
theorem fast_deterministic (hg : Ok g) (ho : Orders g order) (ho' : Orders g order') {fuel : Nat} {s s' : St} {k k' : Nat}
    (h : fast g order fuel = some (s, k)) (h' : fast g order' fuel = some (s', k')) :
    k = k' ∧ ∀ v < g.n, s.color v = s'.color v :=
  fastLoop_same hg ho ho' fuel 0 (start g) (start g) _ _ (fun _ _ => rfl) (fun _ _ => rfl) h h'

/-- `maximum_independent_sets` gives every row a colour between 1 and the number it returns, and uses every
one of these colours; also when weights tie. -/
theorem maximum_complete (hg : Ok g) (ho : Orders g order) {fuel : Nat} (hf : g.n < fuel) {s : St} {k : Nat}
    (h : maximum g order fuel = some (s, k)) :
    (∀ v < g.n, 1 ≤ s.color v ∧ s.color v ≤ k) ∧ ∀ j, 1 ≤ j → j ≤ k → ∃ v < g.n, s.color v = j := by
  have := free_le (g := g) (start g).mask
  obtain ⟨r, h', hr⟩ := maxLoop_good hg ho fuel hf fuel 0 (start g) MInv.start (by omega)
  cases (show some (s, k) = some r from h.symm.trans h')
  exact ⟨hr.bounds, hr.used⟩

/-- `maximum_independent_sets` gives adjacent rows different colours, if adjacent rows have different weights.
Missing for the full claim: graphs with tied weights, for which it is false (`maximum_proper_violated`). -/
theorem maximum_proper_partial (hg : Ok g) (ho : Orders g order) (hd : Distinct g) {fuel : Nat} (hf : g.n < fuel)
    {s : St} {k : Nat} (h : maximum g order fuel = some (s, k)) :
    ∀ v < g.n, ∀ u ∈ g.adj v, u ≠ v → s.color u ≠ s.color v := by
  have := free_le (g := g) (start g).mask
  obtain ⟨r, h', hr⟩ := maxLoop_good hg ho fuel hf fuel 0 (start g) MInv.start (by omega)
  cases (show some (s, k) = some r from h.symm.trans h')
  have htop := hg.top
  have hk : k ≤ g.n := by
    have hsub : List.range' 1 k ⊆ (List.range g.n).map s.color := by
      intro j hj
      rw [List.mem_range'_1] at hj
      obtain ⟨v, hv, e⟩ := hr.used j (by omega) (by omega)
      exact List.mem_map.2 ⟨v, List.mem_range.2 hv, e⟩
    have := (List.subperm_of_subset List.nodup_range' hsub).length_le
    simpa using this
  intro v hv u hu hne
  have a : 1 ≤ s.color v ∧ s.color v ≤ k := hr.bounds v hv
  have b : 1 ≤ s.color u ∧ s.color u ≤ k := hr.bounds u (hg.range v hv u hu)
  exact hr.separate hd v hv u hu hne (show s.color v ≠ g.top by omega) (show s.color u ≠ g.top by omega)

/-- Each colour class of `maximum_independent_sets` is maximal: a row of colour `c` has a neighbour of every
smaller colour. -/
theorem maximum_maximal (hg : Ok g) (ho : Orders g order) {fuel : Nat} (hf : g.n < fuel) {s : St} {k : Nat}
    (h : maximum g order fuel = some (s, k)) :
    ∀ v < g.n, ∀ j, 1 ≤ j → j < s.color v → ∃ u ∈ g.adj v, s.color u = j := by
  have := free_le (g := g) (start g).mask
  obtain ⟨r, h', hr⟩ := maxLoop_good hg ho fuel hf fuel 0 (start g) MInv.start (by omega)
  cases (show some (s, k) = some r from h.symm.trans h')
  exact hr.greedy

/-- No row of `maximum_independent_sets` gets a colour above its degree plus one. -/
theorem maximum_degree (hg : Ok g) (ho : Orders g order) {fuel : Nat} (hf : g.n < fuel) {s : St} {k : Nat}
    (h : maximum g order fuel = some (s, k)) : ∀ v < g.n, s.color v ≤ (g.adj v).length + 1 := by
  intro v hv
  have hsub : List.range' 1 (s.color v - 1) ⊆ (g.adj v).map s.color := by
    intro j hj
    rw [List.mem_range'_1] at hj
    obtain ⟨u, hu, e⟩ := maximum_maximal hg ho hf h v hv j (by omega) (by omega)
    exact List.mem_map.2 ⟨u, hu, e⟩
  have := (List.subperm_of_subset List.nodup_range' hsub).length_le
  simp only [List.length_range', List.length_map] at this
  omega

/-- The colours of `maximum_independent_sets` do not depend on the order in which the rows are visited. -/
theorem maximum_deterministic (hg : Ok g) (ho : Orders g order) (ho' : Orders g order') {fuel : Nat} {s s' : St}
    {k k' : Nat} (h : maximum g order fuel = some (s, k)) (h' : maximum g order' fuel = some (s', k')) :
    k = k' ∧ ∀ v < g.n, s.color v = s'.color v :=
  maxLoop_same hg ho ho' fuel fuel 0 (start g) (start g) _ _ (fun _ _ => rfl) (fun _ _ => rfl) h h'

/-- Two rows joined by an edge, with the same weight. -/
def tied : Graph Nat := { n := 2, adj := fun v => if v = 0 then [1] else if v = 1 then [0] else [], w := fun _ => 7, top := 1000 }

/-- The two functions give two adjacent rows of equal weight the same colour: the result is no colouring. The
weights come from a random generator or from the caller, and nothing in the code rules out ties. -/
theorem fast_proper_violated : Ok tied ∧
    ((fast tied (fun _ => [0, 1]) 3).map fun r => (r.1.color 0, r.1.color 1, r.2)) = some (1, 1, 1) := by
  refine ⟨⟨?_, ?_, by decide⟩, by decide⟩
  · intro v hv; revert v; decide
  · intro v hv; revert v; decide

theorem maximum_proper_violated : Ok tied ∧
    ((maximum tied (fun _ => [0, 1]) 3).map fun r => (r.1.color 0, r.1.color 1, r.2)) = some (1, 1, 1) := by
  refine ⟨fast_proper_violated.1, by decide⟩

/-! ## A case that meets the hypotheses -/

/-- A cycle of five rows, with distinct weights. -/
def ring : Graph Nat :=
  { n := 5, adj := fun v => [(v + 1) % 5, (v + 4) % 5], w := fun v => (3 * v + 1) % 5, top := 1000 }

example : Ok ring ∧ Orders ring (fun k => if k % 2 = 0 then [0, 1, 2, 3, 4] else [3, 0, 4, 1, 2]) ∧ Distinct ring := by
  refine ⟨⟨?_, ?_, by decide⟩, ?_, ?_⟩
  · intro v hv; revert v; decide
  · intro v hv; revert v; decide
  · intro k
    show List.Perm (if k % 2 = 0 then _ else _) (List.range 5)
    split <;> decide
  · intro v hv u hu
    have : ∀ v < 5, ∀ u ∈ ring.adj v, ring.w u ≠ ring.w v := by decide
    exact fun _ => this v hv u hu

example : ((fast ring (fun _ => [0, 1, 2, 3, 4]) 6).map fun r => ((List.range 5).map r.1.color, r.2)) =
    some ([2, 1, 3, 2, 1], 3) := by decide
example : ((maximum ring (fun _ => [3, 0, 4, 1, 2]) 6).map fun r => ((List.range 5).map r.1.color, r.2)) =
    some ([1, 3, 2, 1, 2], 3) := by decide

end Verif.Coloring
