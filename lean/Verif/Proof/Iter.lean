import Verif.Model.Iter
namespace Verif.Iter

/-- the states passed from `a` (inclusive) to `b` (exclusive) -/
inductive Path {σ} (inc : σ → σ) : σ → List σ → σ → Prop
  | nil (a) : Path inc a [] a
  | cons {a l b} : Path inc (inc a) l b → Path inc a (a :: l) b

theorem Path.append {σ} {inc : σ → σ} {a b c : σ} {l m : List σ} (h : Path inc a l b)
    (g : Path inc b m c) : Path inc a (l ++ m) c := by
  induction h with
  | nil => exact g
  | cons _ ih => exact .cons (ih g)

theorem visit_of_path {σ} {eq : σ → σ → Bool} {inc : σ → σ} {a b : σ} {l : List σ}
    (h : Path inc a l b) (hb : eq b b = true) (hl : ∀ s ∈ l, eq s b = false) (f : Nat)
    (hf : l.length < f) : visit eq inc b f a = some l := by
  induction h generalizing f with
  | nil a =>
    obtain ⟨f, rfl⟩ : ∃ g, f = g + 1 := ⟨f - 1, by omega⟩
    simp [visit, hb]
  | cons h ih =>
    obtain ⟨f, rfl⟩ : ∃ g, f = g + 1 := ⟨f - 1, by omega⟩
    rw [visit, hl _ (by simp), ih hb (fun s hs => hl s (by simp [hs])) f (by simp at hf; omega)]
    rfl

theorem path_iterate {σ} (inc : σ → σ) (g : Nat → σ) (hg : ∀ i, inc (g i) = g (i + 1)) (k j : Nat) :
    Path inc (g j) ((List.range k).map fun i => g (j + i)) (g (j + k)) := by
  induction k generalizing j with
  | zero => exact .nil _
  | succ k ih =>
    rw [List.range_succ_eq_map, List.map_cons, List.map_map]
    apply Path.cons
    have := ih (j + 1)
    rw [hg]
    have e : (fun i => g (j + i)) ∘ Nat.succ = fun i => g (j + 1 + i) := by
      funext i; simp only [Function.comp]; congr 1; omega
    rw [Nat.add_zero, e]
    rw [show j + (k + 1) = j + 1 + k by omega]
    exact this

theorem path_iterate0 {σ} (inc : σ → σ) (g : Nat → σ) (hg : ∀ i, inc (g i) = g (i + 1)) (k : Nat) :
    Path inc (g 0) ((List.range k).map g) (g k) := by
  have := path_iterate inc g hg k 0
  simpa using this

/-! ### Collapse -/

/-- index tuples, last dimension first, in the order visited -/
def revTuples : List Nat → List (List Nat)
  | [] => [[]]
  | [n] => (List.range n).map ([·])
  | n :: r => (revTuples r).flatMap fun t => (List.range (max 1 n)).map (· :: t)

theorem length_collapseInc (s : List (Nat × Nat)) : (collapseInc s).map (·.1) = s.map (·.1) := by
  induction s with
  | nil => rfl
  | cons p r ih =>
    obtain ⟨n, i⟩ := p
    cases r with
    | nil => rfl
    | cons q r =>
      rw [collapseInc]
      split
      · rw [List.map_cons, List.map_cons, ih]
      · rfl
      · simp

/-- one sweep of the fastest dimension -/
theorem path_sweep (n : Nat) (q : Nat × Nat) (r : List (Nat × Nat)) :
    Path collapseInc ((n, 0) :: q :: r) ((List.range (max 1 n)).map fun i => (n, i) :: q :: r)
      ((n, 0) :: collapseInc (q :: r)) := by
  have key : ∀ k j, j + k + 1 = max 1 n →
      Path collapseInc ((n, j) :: q :: r) ((List.range (k + 1)).map fun i => (n, j + i) :: q :: r)
        ((n, 0) :: collapseInc (q :: r)) := by
    intro k
    induction k with
    | zero =>
      intro j hj
      apply Path.cons
      rw [collapseInc.eq_3 n j (q :: r) (by simp), if_pos (by omega)]
      exact .nil _
    | succ k ih =>
      intro j hj
      rw [List.range_succ_eq_map, List.map_cons, List.map_map]
      apply Path.cons
      rw [collapseInc.eq_3 n j (q :: r) (by simp), if_neg (by omega)]
      have := ih (j + 1) (by omega)
      have e : (fun i => (n, j + i) :: q :: r) ∘ Nat.succ = fun i => (n, j + 1 + i) :: q :: r := by
        funext i; simp only [Function.comp]; congr 2; omega
      rw [e]; exact this
  have := key (max 1 n - 1) 0 (by omega)
  rw [show max 1 n - 1 + 1 = max 1 n by omega] at this
  simpa using this

theorem path_lift (n : Nat) {s t : List (Nat × Nat)} {l : List (List (Nat × Nat))} (hs : s ≠ [])
    (h : Path collapseInc s l t) :
    Path collapseInc ((n, 0) :: s)
      (l.flatMap fun u => (List.range (max 1 n)).map fun i => (n, i) :: u) ((n, 0) :: t) := by
  induction h with
  | nil a => exact .nil _
  | cons h ih =>
    rename_i a l b
    obtain ⟨q, r, rfl⟩ := List.exists_cons_of_ne_nil hs
    rw [List.flatMap_cons]
    refine (path_sweep n q r).append (ih ?_)
    intro h
    have := congrArg List.length h
    have hl := congrArg List.length (length_collapseInc (q :: r))
    simp at this hl
    rw [this] at hl; simp at hl

theorem collapse_path (ns : List Nat) (hns : ns ≠ []) :
    ∃ l, Path collapseInc (collapseBegin ns) l (collapseEnd ns) ∧
      l.map (·.map (·.2)) = revTuples ns ∧ ∀ s ∈ l, collapseEq s (collapseEnd ns) = false := by
  induction ns with
  | nil => exact absurd rfl hns
  | cons n r ih =>
    cases r with
    | nil =>
      refine ⟨(List.range n).map fun i => [(n, i)], ?_, ?_, ?_⟩
      · exact path_iterate0 collapseInc (fun i => [(n, i)]) (fun i => rfl) n
      · simp [revTuples]
      · intro s hs
        obtain ⟨i, hi, rfl⟩ := List.mem_map.mp hs
        have := List.mem_range.mp hi
        simp [collapseEq, collapseEnd]; omega
    | cons m r =>
      obtain ⟨l, h1, h2, h3⟩ := ih (by simp)
      refine ⟨_, path_lift n (by simp) h1, ?_, ?_⟩
      · rw [revTuples.eq_3 n (m :: r) (by simp), ← h2, List.map_flatMap, List.flatMap_map]
        congr 1; funext u
        rw [List.map_map]
        rfl
      · intro s hs
        obtain ⟨u, hu, hs⟩ := List.mem_flatMap.mp hs
        obtain ⟨i, -, rfl⟩ := List.mem_map.mp hs
        have := h3 u hu
        simp only [collapseEq, collapseEnd, List.map_cons] at this ⊢
        rw [show ((i :: List.map (fun x => x.2) u) == (0 :: List.map (fun x => x.2) (collapseEnd (m :: r))))
          = (i == 0 && (List.map (fun x => x.2) u) == (List.map (fun x => x.2) (collapseEnd (m :: r)))) from rfl]
        rw [this]; simp

end Verif.Iter
