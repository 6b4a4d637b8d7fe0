import Verif.Proof.MaxFlowFlow

/-!
C45: `maximum_flow` returns the value of a maximum flow.
-/
namespace Verif.MaxFlow

/-- Under every interleaving of the kernels, with outdated reads, the call ends, indexes no array out of
bounds, and returns the value of a flow; the matrix then holds the residual capacities. Missing: the flow
need not be a largest one (`maxflow_maximal_violated`), and `potentialFlows[vi]` in lines 34-35 has to be
loaded once (`maxflow_feasible_violated`). -/
theorem maxflow_feasible_partial {g : Net} (hg : Ok g) {s t : Nat} (hs : s < g.n) (hst : s ≠ t) {top : Int} (ht : 0 < top)
    {vals : Nat → Int} (hv : ∀ u < g.n, ∀ i ∈ g.row u, 0 ≤ vals i) (sched : Nat → Nat → List (Nat × Bool))
    (parent : Nat → Option Nat) {fuel : Nat} (hf : (outflow g.n (cap g vals) s).toNat < fuel) :
    ∃ vals' res f, maximumFlow g true top s t sched parent vals fuel = some (vals', res) ∧
      Flow g.n (cap g vals) s t f ∧ outflow g.n f s = res ∧
      ∀ u < g.n, ∀ v < g.n, cap g vals' u v = cap g vals u v - f u v := by
  obtain ⟨vals', res, h1, h2, -⟩ := augment_ok (once := true) (top := top) hg hs hst sched (fun _ => True)
    (fun a vals parent => by
      obtain ⟨f, h1, h2, -⟩ := search_once (vals := vals) (s := s) (t := t) hg ht (sched a) parent
      exact ⟨f, h1, h2, fun _ => trivial⟩) fuel 0 parent vals 0 (Res.start hv) (by omega)
  obtain ⟨h3, h4⟩ := h2.flow hg
  refine ⟨vals', res, flowOf g vals vals', ?_, h3, h4, fun u _ v _ => ?_⟩
  · rw [maximumFlow, no_duplicates hg]; exact h1
  · unfold flowOf; omega

/-- When the rows are processed one after the other, in any order, the call returns the value of a flow and
no flow is larger, however line 34-35 is compiled. -/
theorem maxflow_maximal_partial {g : Net} (hg : Ok g) {s t : Nat} (hs : s < g.n) (htn : t < g.n) (hst : s ≠ t) {top : Int}
    (ht : 0 < top) {vals : Nat → Int} (hv : ∀ u < g.n, ∀ i ∈ g.row u, 0 ≤ vals i) (once : Bool) (order : Nat → Nat → List Nat)
    (ho : ∀ a c, ∀ r ∈ order a c, r < g.n) (parent : Nat → Option Nat) {fuel : Nat}
    (hf : (outflow g.n (cap g vals) s).toNat < fuel) :
    ∃ vals' res f, maximumFlow g once top s t (fun a c => serial g (order a c)) parent vals fuel = some (vals', res) ∧
      Flow g.n (cap g vals) s t f ∧ outflow g.n f s = res ∧
      (∀ u < g.n, ∀ v < g.n, cap g vals' u v = cap g vals u v - f u v) ∧
      ∀ f', Flow g.n (cap g vals) s t f' → outflow g.n f' s ≤ res := by
  obtain ⟨vals', res, h1, h2, vis, e1, e2, e3⟩ := augment_ok (once := once) (top := top) hg hs hst
    (fun a c => serial g (order a c))
    (fun vals => ∃ vis : Nat → Bool, vis s = true ∧ vis t = false ∧
      ∀ u < g.n, vis u = true → ∀ i ∈ g.row u, 0 < vals i → vis (g.ind i) = true)
    (fun a vals parent => by
      obtain ⟨f, h1, h2, h3⟩ := search_serial (once := once) (vals := vals) (s := s) hg ht htn (order a) (ho a) parent
      exact ⟨f, h1, h2, fun h => ⟨f.visited, h3 h⟩⟩) fuel 0 parent vals 0 (Res.start hv) (by omega)
  obtain ⟨h3, h4⟩ := h2.flow hg
  refine ⟨vals', res, flowOf g vals vals', ?_, h3, h4, fun u _ v _ => ?_, fun f' hf' => h2.maximal hg hs vis e1 e2 e3 f' hf'⟩
  · rw [maximumFlow, no_duplicates hg]; exact h1
  · unfold flowOf; omega

/-- So with sequential execution the result does not depend on the order of the rows, on what `parents` held,
or on how lines 34-35 are compiled. -/
theorem maxflow_deterministic {g : Net} (hg : Ok g) {s t : Nat} (hs : s < g.n) (htn : t < g.n) (hst : s ≠ t) {top top' : Int}
    (ht : 0 < top) (ht' : 0 < top') {vals : Nat → Int} (hv : ∀ u < g.n, ∀ i ∈ g.row u, 0 ≤ vals i) (once once' : Bool)
    (order order' : Nat → Nat → List Nat)
    (ho : ∀ a c, ∀ r ∈ order a c, r < g.n) (ho' : ∀ a c, ∀ r ∈ order' a c, r < g.n) (parent parent' : Nat → Option Nat) {fuel : Nat}
    (hf : (outflow g.n (cap g vals) s).toNat < fuel) :
    (maximumFlow g once top s t (fun a c => serial g (order a c)) parent vals fuel).map Prod.snd =
      (maximumFlow g once' top' s t (fun a c => serial g (order' a c)) parent' vals fuel).map Prod.snd := by
  obtain ⟨v1, r1, f1, h1, h2, h3, -, h4⟩ := maxflow_maximal_partial hg hs htn hst ht hv once order ho parent hf
  obtain ⟨v2, r2, f2, k1, k2, k3, -, k4⟩ := maxflow_maximal_partial hg hs htn hst ht' hv once' order' ho' parent' hf
  have a := h4 f2 k2
  have b := k4 f1 h2
  rw [h1, k1]
  simp only [Option.map_some, Option.some.injEq]
  omega

/-! ## Where the code fails -/

/-- 0 - 1 - 2 with both directions stored. -/
def line : Net where
  n := 3
  ptr := fun u => [0, 1, 3, 4].getD u 4
  ind := fun i => [1, 0, 2, 1].getD i 0

theorem line_ok : Ok line := by
  refine ⟨?_, ?_, ?_, ?_⟩ <;> decide

def lineVals (a b : Int) : Nat → Int := fun i => [a, 0, b, 0].getD i 0

/-- The task of row 0 has put 1 into the frontier but not yet stored its potential flow; the task of row 1
runs. -/
def race : Nat → Nat → List (Nat × Bool)
  | 0, 0 => List.replicate 4 (0, false) ++ List.replicate 10 (1, false)
  | _, _ => []

/-- The flow of one unit. -/
def unit : Nat → Nat → Int
  | 0, 1 => 1
  | 1, 0 => -1
  | 1, 2 => 1
  | 2, 1 => -1
  | _, _ => 0

theorem unit_flow : Flow 3 (cap line (lineVals 1 1)) 0 2 unit := by
  refine ⟨?_, ?_, ?_⟩ <;> decide

/-- Two tasks running at the same time: the sink is reached with potential flow 0 and the call returns 0
although a unit can flow. -/
theorem maxflow_maximal_violated :
    (maximumFlow line true 100 0 2 race (fun _ => none) (lineVals 1 1) 9).map Prod.snd = some 0 ∧
      Flow 3 (cap line (lineVals 1 1)) 0 2 unit ∧ outflow 3 unit 0 = 1 :=
  ⟨by decide +kernel, unit_flow, by decide⟩

/-- The task of row 1 compares before, and selects after, the task of row 0 has stored 5. -/
def race2 : Nat → Nat → List (Nat × Bool)
  | 0, 0 => List.replicate 4 (0, false) ++ List.replicate 7 (1, false) ++ List.replicate 3 (0, false)
  | _, _ => []

theorem line_bound (f : Nat → Nat → Int) (h : Flow 3 (cap line (lineVals 5 1)) 0 2 f) : outflow 3 f 0 ≤ 1 := by
  have e := flow_cut h {0, 1} (by decide) (by decide) (by decide)
  have a := h.le 0 (by decide) 2 (by decide)
  have b := h.le 1 (by decide) 2 (by decide)
  have c1 : cap line (lineVals 5 1) 0 2 = 0 := by decide
  have c2 : cap line (lineVals 5 1) 1 2 = 1 := by decide
  rw [e, show Finset.range 3 \ {0, 1} = {2} by decide, Finset.sum_insert (by decide), Finset.sum_singleton, Finset.sum_singleton,
    Finset.sum_singleton]
  omega

/-- When the two occurrences of `potentialFlows[vi]` are two loads, the call can return more than can flow. -/
theorem maxflow_feasible_violated :
    (maximumFlow line false 100 0 2 race2 (fun _ => none) (lineVals 5 1) 9).map Prod.snd = some 5 ∧
      ∀ f, Flow 3 (cap line (lineVals 5 1)) 0 2 f → outflow 3 f 0 ≤ 1 :=
  ⟨by decide +kernel, line_bound⟩

/-- 0 - 1 with only one direction stored. -/
def oneWay : Net where
  n := 2
  ptr := fun u => [0, 1, 1].getD u 1
  ind := fun _ => 1

/-- An edge without the opposite edge: the residual entry is not found and -1 is used as an index. -/
theorem maxflow_reverse_edge_violated (fuel : Nat) :
    maximumFlow oneWay true 100 0 1 (fun _ _ => []) (fun _ => none) (fun _ => 1) fuel = none := by
  cases fuel with
  | zero => rfl
  | succ fuel =>
    have h : (search oneWay true 100 (fun _ => 1) 0 1 (fun _ => []) (fun _ => none)).all
        (fun f => decide (0 < f.pf 1) && (walk oneWay (f.pf 1) f.parent 3 1 (fun _ => 1)).isNone) = true := by decide +kernel
    rw [maximumFlow, if_neg (by decide), augment]
    generalize search oneWay true 100 (fun _ => 1) 0 1 (fun _ => []) (fun _ => none) = x at h
    match x with
    | none => rfl
    | some f =>
      simp only [Option.all_some, Bool.and_eq_true, decide_eq_true_eq, Option.isNone_iff_eq_none] at h
      simp only [h.1, if_true]
      rw [show oneWay.n + 1 = 3 from rfl, h.2]

/-- 0 - 1 twice. -/
def twice : Net where
  n := 2
  ptr := fun u => [0, 2, 4].getD u 4
  ind := fun i => [1, 1, 0, 0].getD i 0

/-- A pair that is stored twice: `insert` returns -1 and that is used as an index. -/
theorem maxflow_duplicate_violated (vals : Nat → Int) (fuel : Nat) :
    maximumFlow twice true 100 0 1 (fun _ _ => []) (fun _ => none) vals fuel = none := by
  rw [maximumFlow, if_pos (by decide)]

/-- Source and sink are the same: the search always succeeds, and the call does not end. -/
theorem maxflow_same_vertex_violated {g : Net} (hg : Ok g) {s : Nat} {top : Int} (ht : 0 < top)
    (sched : Nat → Nat → List (Nat × Bool)) (parent : Nat → Option Nat) (vals : Nat → Int) (fuel : Nat) :
    maximumFlow g true top s s sched parent vals fuel = none := by
  rw [maximumFlow, no_duplicates hg]
  show augment g true top s s sched fuel 0 parent vals 0 = none
  have key : ∀ (fuel a : Nat) (parent : Nat → Option Nat) (vals : Nat → Int) (res : Int),
      augment g true top s s sched fuel a parent vals res = none := by
    intro fuel
    induction fuel with
    | zero => intros; rfl
    | succ fuel ih =>
      intro a parent vals res
      unfold augment
      split
      · rfl
      · split
        · split
          · rfl
          · exact ih _ _ _ _
        · next f e h => exact absurd (search_source hg ht e) h
  exact key fuel 0 parent vals 0

/-! ## Examples -/

/-- 0 - {1, 2} - 3 and 1 - 2, both directions stored. -/
def diamond : Net where
  n := 4
  ptr := fun u => [0, 2, 5, 8, 10].getD u 10
  ind := fun i => [1, 2, 0, 2, 3, 0, 1, 3, 1, 2].getD i 0

def diamondVals : Nat → Int := fun i => [3, 2, 0, 2, 2, 0, 0, 3, 0, 0].getD i 0

theorem diamond_ok : Ok diamond := by
  refine ⟨?_, ?_, ?_, ?_⟩ <;> decide

example : ∃ vals' res f, maximumFlow diamond true 100 0 3 (fun _ _ => [(1, true), (0, false), (2, false)]) (fun _ => none) diamondVals 6 =
    some (vals', res) ∧ Flow 4 (cap diamond diamondVals) 0 3 f ∧ outflow 4 f 0 = res ∧ ∀ u < 4, ∀ v < 4,
      cap diamond vals' u v = cap diamond diamondVals u v - f u v :=
  maxflow_feasible_partial diamond_ok (by decide) (by decide) (by decide) (by decide) _ _ (by decide)

example : (maximumFlow diamond false 100 0 3 (fun _ _ => serial diamond [3, 1]) (fun _ => none) diamondVals 6).map Prod.snd = some 5 := by
  decide +kernel

end Verif.MaxFlow
