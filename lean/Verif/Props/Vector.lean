import Verif.Proof.VectorStep
/-!
C28: `Vector` keeps its elements.
-/
namespace Verif.Vector

variable {α : Type}

private theorem refines_of_inv {s : St α} {a : Abs α} (h : Inv s a) : Refines s a := by
  intro i
  cases hv : s.obj i with
  | none =>
    rw [h.dead i hv]
    simp [observed, hv]
  | some v =>
    obtain ⟨l, hl, cells, hc, hcap, hsz, hlen, hh⟩ := h.own i v hv
    rw [hl]
    simp only [observed, hv, Option.map_some]
    refine ⟨⟨by simp [hlen], fun k x hk => ?_⟩, hsz⟩
    have hk' : k < v.size := by
      have := (List.getElem?_eq_some_iff.1 hk).1
      omega
    rw [List.getElem?_map, List.getElem?_range hk']
    simp only [Option.map_some, Option.some.injEq, load]
    rw [hc]
    simp only [Option.bind_eq_bind, Option.bind_some]
    rw [hh k x hk]
    rfl

/-- C28 for every history of calls on any number of vectors (construction, destruction, copy, move, clone,
swap, resize with and without filling or alignment, push_back, append also of a vector to itself, element
assignment, reorder): no call has undefined behaviour, and afterwards every vector shows the abstract
contents with `size() <= capacity()`.  Partial: `push_back(v[k])` at full capacity and `reorder` of a
vector with spare capacity are excluded (`Handled`), see the violations below. -/
theorem vector_refines_partial (s : St α) (a : Abs α) (h : Reach s a) :
    Refines s a ∧ ∀ op a', Handled s op → specStep a op = some a' →
      ∃ s', step s op = some s' ∧ Refines s' a' := by
  have hi := reach_inv h
  refine ⟨refines_of_inv hi, fun op a' h1 h2 => ?_⟩
  obtain ⟨s', e1, e2⟩ := step_spec hi op h1 h2
  exact ⟨s', e1, refines_of_inv e2⟩

/-- C28: distinct vectors never share storage, and storage that holds elements belongs to a living
vector; in particular nothing is left when all vectors are destroyed. -/
theorem vector_storage_owned (s : St α) (a : Abs α) (h : Reach s a) :
    (∀ i j v w, s.obj i = some v → s.obj j = some w → v.base = w.base → i = j) ∧
      ∀ b cells, s.heap b = some cells → cells ≠ [] → ∃ i v, s.obj i = some v ∧ v.base = b :=
  ⟨(reach_inv h).inj, (reach_inv h).noleak⟩

/-- `capacity()`. -/
def capacity (s : St α) (i : Nat) : Option Nat := (s.obj i).map (·.cap)

/-- `push_back` of all the elements of a list, counting the calls that change `capacity()` (i.e. that
reallocate). -/
def pushAll (i : Nat) : List α → St α → Option (St α × Nat)
  | [], s => some (s, 0)
  | x :: xs, s => do
    let s1 ← push i x s
    let (s2, k) ← pushAll i xs s1
    return (s2, if capacity s1 i = capacity s i then k else k + 1)

private theorem push_cap {s : St α} {a : Abs α} (h : Inv s a) {i : Nat} {x : α} {v : Vec}
    {l : List (Option α)} (hv : s.obj i = some v) (hl : a i = some l) :
    ∃ s' v', push i x s = some s' ∧ Inv s' (upd a i (some (l ++ [some x]))) ∧ s'.obj i = some v' ∧
      v'.size = v.size + 1 ∧ (v.size + 1 ≤ v.cap → v'.cap = v.cap) ∧
      (v.cap < v.size + 1 → v'.cap = growth (v.size + 1) v.cap) := by
  obtain ⟨s1, v1, e1, e2, e3, e4, e5, e6⟩ :=
    resize_spec h (n := v.size + 1) (al := 1) (ch := none) hv hl
  obtain ⟨s', f1, f2⟩ := push_spec h (x := x) hl
  have hv1 : s1.obj i = some v1 := by rw [e3, upd_same]
  refine ⟨s', v1, f1, f2, ?_, e4, fun h => (e5 h).2, fun h => ?_⟩
  · unfold push at f1
    rw [hv] at f1
    simp only [Option.bind_eq_bind, Option.bind_some] at f1
    rw [e1] at f1
    simp only [Option.bind_some] at f1
    rw [hv1] at f1
    simp only [Option.bind_some, store] at f1
    obtain ⟨c, _, f1⟩ := Option.bind_eq_some_iff.1 f1
    split at f1
    · simp only [Option.pure_def, Option.some.injEq] at f1
      subst f1
      exact hv1
    · exact absurd f1 (by simp)
  · rw [e6 h]
    simp [alignUp, Nat.mod_one]

private theorem growth_big (c : Nat) (_ : 1 ≤ c) : c < growth (c + 1) c ∧ 4 * c ≤ 3 * growth (c + 1) c := by
  unfold growth
  dsimp only
  split <;> omega

private theorem pushAll_bound (i : Nat) (xs : List α) :
    ∀ (s : St α) (a : Abs α) (v : Vec) (l : List (Option α)) (k : Nat), Inv s a → s.obj i = some v →
      a i = some l → v.size ≤ v.cap →
      ((k = 0 ∧ v.cap = 0) ∨ (1 ≤ v.size ∧ 1 ≤ k ∧ 4 ^ (k - 1) ≤ 3 ^ (k - 1) * v.cap ∧
        4 ^ k ≤ 3 ^ k * (2 * v.size))) →
      ∃ s' k', pushAll i xs s = some (s', k') ∧ ((k + k' = 0 ∧ v.size + xs.length = 0) ∨
        4 ^ (k + k') ≤ 3 ^ (k + k') * (2 * (v.size + xs.length))) := by
  induction xs with
  | nil =>
    intro s a v l k _ _ _ _ hk
    refine ⟨s, 0, rfl, ?_⟩
    rcases hk with ⟨h1, h2⟩ | ⟨_, _, _, h⟩
    · exact Or.inl ⟨by omega, by simp; omega⟩
    · exact Or.inr (by simpa using h)
  | cons x xs ih =>
    intro s a v l k hinv hv hl hsz hk
    obtain ⟨s1, v1, e1, e2, e3, e4, e5, e6⟩ := push_cap hinv (x := x) hv hl
    have hsz1 : v1.size ≤ v1.cap := by
      obtain ⟨_, _, _, _, _, h, _⟩ := e2.own i v1 e3
      exact h
    have hlen : v.size + (x :: xs).length = v1.size + xs.length := by simp; omega
    by_cases hfit : v.size + 1 ≤ v.cap
    · obtain ⟨s2, k2, f1, f2⟩ := ih s1 _ v1 _ k e2 e3 (upd_same ..) hsz1 (by
        rcases hk with ⟨h1, h2⟩ | ⟨h1, h2, h3, h4⟩
        · omega
        · refine Or.inr ⟨by omega, h2, by rw [e5 hfit]; exact h3, Nat.le_trans h4 ?_⟩
          exact Nat.mul_le_mul_left _ (by omega))
      refine ⟨s2, k2, ?_, by rw [hlen]; exact f2⟩
      simp only [pushAll, Option.bind_eq_bind, Option.pure_def]
      rw [e1]
      simp only [Option.bind_some]
      rw [f1]
      simp only [Option.bind_some, capacity, e3, hv, Option.map_some, e5 hfit, if_true]
    · have hcap : v.size = v.cap := by omega
      have hg := e6 (by omega)
      rw [hcap] at hg
      obtain ⟨s2, k2, f1, f2⟩ := ih s1 _ v1 _ (k + 1) e2 e3 (upd_same ..) hsz1 (by
        refine Or.inr ⟨by omega, by omega, ?_, ?_⟩
        · rcases hk with ⟨h1, h2⟩ | ⟨h1, h2, h3, h4⟩
          · subst h1; simp; omega
          · have hb := (growth_big v.cap (by omega)).2
            obtain ⟨p, rfl⟩ : ∃ p, k = p + 1 := ⟨k - 1, by omega⟩
            simp only [Nat.add_sub_cancel] at h3 ⊢
            rw [Nat.pow_succ, Nat.pow_succ, hg]
            calc 4 ^ p * 4 ≤ 3 ^ p * v.cap * 4 := Nat.mul_le_mul_right _ h3
              _ = 3 ^ p * (4 * v.cap) := by rw [Nat.mul_assoc, Nat.mul_comm v.cap]
              _ ≤ 3 ^ p * (3 * growth (v.cap + 1) v.cap) := Nat.mul_le_mul_left _ hb
              _ = 3 ^ p * 3 * growth (v.cap + 1) v.cap := by rw [Nat.mul_assoc]
        · rcases hk with ⟨h1, h2⟩ | ⟨h1, h2, h3, h4⟩
          · subst h1; rw [e4]; simp; omega
          · obtain ⟨p, rfl⟩ : ∃ p, k = p + 1 := ⟨k - 1, by omega⟩
            simp only [Nat.add_sub_cancel] at h3
            rw [Nat.pow_succ, Nat.pow_succ, Nat.pow_succ, Nat.pow_succ, e4, hcap]
            calc 4 ^ p * 4 * 4 = 4 ^ p * 16 := by rw [Nat.mul_assoc]
              _ ≤ 3 ^ p * v.cap * 16 := Nat.mul_le_mul_right _ h3
              _ = 3 ^ p * (v.cap * 16) := by rw [Nat.mul_assoc]
              _ ≤ 3 ^ p * (3 * (3 * (2 * (v.cap + 1)))) := Nat.mul_le_mul_left _ (by omega)
              _ = 3 ^ p * 3 * 3 * (2 * (v.cap + 1)) := by rw [Nat.mul_assoc, Nat.mul_assoc])
      refine ⟨s2, k2 + 1, ?_, by rw [hlen, show k + (k2 + 1) = k + 1 + k2 by omega]; exact f2⟩
      simp only [pushAll, Option.bind_eq_bind, Option.pure_def]
      rw [e1]
      simp only [Option.bind_some]
      rw [f1]
      simp only [Option.bind_some, capacity, e3, hv, Option.map_some]
      have hne : ¬ (v1.cap = v.cap) := by
        rw [hg]
        by_cases h0 : v.cap = 0
        · rw [h0]; decide
        · have := (growth_big v.cap (by omega)).1
          omega
      simp [hne]

/-- C28: appending `n` elements one by one to a new empty vector reallocates `k` times with
`(4/3)^k <= 2 n`, i.e. logarithmically often. -/
theorem vector_amortized (xs : List α) (h : xs ≠ []) :
    ∃ s0 s' k, ctor 0 0 (init : St α) = some s0 ∧ pushAll 0 xs s0 = some (s', k) ∧
      4 ^ k ≤ 3 ^ k * (2 * xs.length) := by
  obtain ⟨s0, e1, e2⟩ := ctor_spec (inv_init (α := α)) (i := 0) (n := 0) rfl
  have hv : s0.obj 0 = some ⟨0, 0, 0⟩ := by
    simp only [ctor, init, alloc, Option.some.injEq] at e1
    rw [← e1]
    rfl
  obtain ⟨s', k, f1, f2⟩ := pushAll_bound 0 xs s0 _ ⟨0, 0, 0⟩ [] 0 e2 hv (upd_same ..) (Nat.le_refl _)
    (Or.inl ⟨rfl, rfl⟩)
  refine ⟨s0, s', k, e1, f1, ?_⟩
  rcases f2 with f2 | f2
  · exact absurd (List.length_eq_zero_iff.1 (by simpa using f2.2)) h
  · simpa using f2

/-- C28, violated: `v.push_back(v[0])` on a full vector reads the freed old storage. -/
theorem push_own_element_violated :
    ∃ (s : St Nat) (a : Abs Nat), Reach s a ∧ (specStep a (.pushOwn 0 0)).isSome = true ∧
      (step s (.pushOwn 0 0)).isNone = true := by
  have h1 := Reach.call (.ctor 0 1) (init : St Nat) _ (fun _ => none) _ Reach.init trivial rfl rfl
  have h2 := Reach.call (.set 0 0 7) _ _ _ _ h1 trivial rfl rfl
  exact ⟨_, _, h2, rfl, rfl⟩

/-- C28, violated: `Vector v(3); v.resize(1);` and then `reorder` with the identity
mapping makes the size 3, the capacity. -/
theorem reorder_size_violated :
    ∃ (s s' : St Nat) (a : Abs Nat), Reach s a ∧ (specStep a (.reorder 0 id)).isSome = true ∧
      (s.obj 0).map (·.size) = some 1 ∧ step s (.reorder 0 id) = some s' ∧
      (s'.obj 0).map (·.size) = some 3 := by
  have h1 := Reach.call (.ctor 0 3) (init : St Nat) _ (fun _ => none) _ Reach.init trivial rfl rfl
  have h2 := Reach.call (.resize 0 1 1 none) _ _ _ _ h1 trivial rfl rfl
  exact ⟨_, _, _, h2, by decide, rfl, rfl, rfl⟩

/-- A history with a self-append, a copy and a move meets the hypotheses. -/
example : ∃ (s : St Nat) (a : Abs Nat), Reach s a ∧ a 1 = some [some 7, some 7] ∧ a 2 = some [some 7, some 7] ∧
    a 0 = some [] := by
  have h1 := Reach.call (.ctor 0 0) (init : St Nat) _ (fun _ => none) _ Reach.init trivial rfl rfl
  have h2 := Reach.call (.push 0 7) _ _ _ _ h1 trivial rfl rfl
  have h3 := Reach.call (.append 0 0) _ _ _ _ h2 trivial rfl rfl
  have h4 := Reach.call (.copyCtor 1 0) _ _ _ _ h3 trivial rfl rfl
  have h5 := Reach.call (.moveCtor 2 0) _ _ _ _ h4 trivial rfl rfl
  exact ⟨_, _, h5, rfl, rfl, rfl⟩

end Verif.Vector
