import Verif.Proof.UnionFind

/-!
C43: `union_find` labels connected components.
-/
namespace Verif.UnionFind

/-! ## Specification -/

/-- The graph has the edge `(v, w)`: an entry of row `v` that is not skipped. -/
def Adj (g : Graph) (v w : Nat) : Prop :=
  v < g.n ∧ ∃ i, g.ptrs v ≤ i ∧ i < g.ptrs (v + 1) ∧ g.skip i = false ∧ g.inds i = w

/-- Joined by a path. -/
inductive Connected (g : Graph) : Nat → Nat → Prop where
  | refl (v : Nat) : Connected g v v
  | step {u v w : Nat} : Connected g u v → Adj g v w → Connected g u w

/-- Following `fas` from `x` ends in `r`. -/
inductive Rep (fa : Nat → Nat) : Nat → Nat → Prop where
  | root {r : Nat} : fa r = r → Rep fa r r
  | step {x r : Nat} : Rep fa (fa x) r → Rep fa x r

/-! ## Helpers -/

variable {g : Graph} {s : St}

private theorem run_inv {sched : List (Nat × Nat)} : ∀ {s : St}, Inv g s → (∀ x ∈ sched, x.1 < g.n) →
    ∃ s', run g s sched = some s' ∧ Inv g s' := by
  induction sched with
  | nil => intro s h _; exact ⟨s, rfl, h⟩
  | cons x rest ih =>
    obtain ⟨v, c⟩ := x
    intro s h hx
    obtain ⟨s1, e, h1⟩ := h.step (c := c) (hx (v, c) List.mem_cons_self)
    obtain ⟨s2, e2, h2⟩ := ih h1 fun x hx' => hx x (List.mem_cons_of_mem _ hx')
    refine ⟨s2, ?_, h2⟩
    unfold run
    rw [e]
    exact e2

private theorem inv_of_run {sched : List (Nat × Nat)} (hx : ∀ x ∈ sched, x.1 < g.n)
    (hr : run g (start g) sched = some s) : Inv g s := by
  obtain ⟨s', e, h⟩ := run_inv (inv_start g) hx
  rw [hr] at e
  cases e
  exact h

private theorem rep_root {fa : Nat → Nat} (hd : Down fa) {x r : Nat} (h : Rep fa x r) : r = root fa x := by
  induction h with
  | root e => exact (root_fixed e).symm
  | step _ ih => rw [ih, root_fa hd]

private theorem rep_exists {fa : Nat → Nat} (hd : Down fa) : ∀ x, Rep fa x (root fa x) := by
  intro x
  induction x using Nat.strongRecOn with
  | ind x ih =>
    by_cases e : fa x = x
    · rw [root_fixed e]; exact .root e
    · rw [← root_fa hd]
      exact .step (ih _ (Nat.lt_of_le_of_ne (hd x) e))

private theorem Connected.trans {u v w : Nat} (h : Connected g u v) (h' : Connected g v w) : Connected g u w := by
  induction h' with
  | refl => exact h
  | step _ e ih => exact ih.step e

private theorem Connected.symm (hs : ∀ v w, Adj g v w → Adj g w v) {u v : Nat} (h : Connected g u v) : Connected g v u := by
  induction h with
  | refl => exact .refl _
  | step _ e ih => exact ((Connected.refl _).step (hs _ _ e)).trans ih

private theorem linked_connected (hs : ∀ v w, Adj g v w → Adj g w v) {u v : Nat} (h : Linked g u v) : Connected g u v := by
  induction h with
  | refl => exact .refl _
  | edge hv hi hsk hlt =>
    unfold Graph.row at hi
    rw [List.mem_range'_1] at hi
    exact (Connected.refl _).step ⟨hv, _, hi.1, by omega, hsk, rfl⟩
  | symm _ ih => exact ih.symm hs
  | trans _ _ ih ih' => exact ih.trans ih'

/-- The trees consist of linked vertices. -/
private theorem linked_root (h : Good g s) : ∀ x, x < g.n → Linked g x (root s.fa x) := by
  intro x
  induction x using Nat.strongRecOn with
  | ind x ih =>
    intro hx
    by_cases e : s.fa x = x
    · rw [root_fixed e]; exact .refl _
    · have hlt := Nat.lt_of_le_of_ne (h.down x) e
      rw [← root_fa h.down]
      exact (h.linked x hx _ (fa_mem (h.nonempty x))).trans (ih _ hlt (by omega))

/-! ## The theorems -/

/-- No access outside the array, whatever the interleaving and however stale the reads. -/
theorem union_find_safe (sched : List (Nat × Nat)) (hx : ∀ x ∈ sched, x.1 < g.n) :
    ∃ s, run g (start g) sched = some s := by
  obtain ⟨s, e, _⟩ := run_inv (inv_start g) hx
  exact ⟨s, e⟩

/-- When all tasks are done, following `fas` from any vertex ends, and two vertices end in the same
representative exactly when they are connected; the representative is the smallest vertex of the
component. -/
theorem union_find_components (hsym : ∀ v w, Adj g v w → Adj g w v) {sched : List (Nat × Nat)}
    (hx : ∀ x ∈ sched, x.1 < g.n) (hr : run g (start g) sched = some s) (hdone : ∀ v < g.n, s.pc v = .done) :
    (∀ v < g.n, ∃ r, Rep s.fa v r ∧ (∀ r', Rep s.fa v r' → r' = r) ∧ Connected g v r ∧
      ∀ w, Connected g v w → r ≤ w) ∧
    (∀ u < g.n, ∀ v < g.n, ∀ r r', Rep s.fa u r → Rep s.fa v r' → (r = r' ↔ Connected g u v)) := by
  have h := inv_of_run hx hr
  have hd := h.good.down
  have hadj : ∀ v w, Adj g v w → root s.fa v = root s.fa w := by
    have lower : ∀ v w, Adj g v w → w < v → root s.fa v = root s.fa w := by
      rintro v w ⟨hv, i, h1, h2, h3, rfl⟩ hlt
      have := h.ok v hv
      rw [hdone v hv] at this
      exact this i h1 h2 h2 h3 hlt
    intro v w e
    rcases Nat.lt_trichotomy w v with hlt | heq | hlt
    · exact lower v w e hlt
    · rw [heq]
    · exact (lower w v (hsym v w e) hlt).symm
  have hconn : ∀ u v, Connected g u v → root s.fa u = root s.fa v := by
    intro u v hc
    induction hc with
    | refl => rfl
    | step _ e ih => exact ih.trans (hadj _ _ e)
  have hback : ∀ v < g.n, Connected g v (root s.fa v) := fun v hv => linked_connected hsym (linked_root h.good v hv)
  constructor
  · intro v hv
    refine ⟨root s.fa v, rep_exists hd v, fun r' h' => rep_root hd h', hback v hv, ?_⟩
    intro w hw
    rw [hconn v w hw]
    exact root_le hd w
  · intro u hu v hv r r' h1 h2
    rw [rep_root hd h1, rep_root hd h2]
    constructor
    · intro e
      have := hback u hu
      rw [e] at this
      exact this.trans ((hback v hv).symm hsym)
    · exact hconn u v

/-! ## Every task finishes -/

/-- Own steps that are still needed at most. -/
private def need (g : Graph) (v : Nat) : Pc → Nat
  | .edge i _ => (g.ptrs (v + 1) - i) * (4 * g.n + 8) + 1
  | .hook i vs os => (g.ptrs (v + 1) - i - 1) * (4 * g.n + 8) + 2 + vs + os
  | .seek none _ _ => (g.ptrs (v + 1) - g.ptrs v) * (4 * g.n + 8) + 2 * g.n + 5
  | .seek (some i) _ _ => (g.ptrs (v + 1) - i - 1) * (4 * g.n + 8) + 4 * g.n + 5
  | .climb none _ _ curr => (g.ptrs (v + 1) - g.ptrs v) * (4 * g.n + 8) + 3 + 2 * curr
  | .climb (some i) _ _ curr => (g.ptrs (v + 1) - i - 1) * (4 * g.n + 8) + 2 * g.n + 3 + 2 * curr
  | .halve none _ _ _ next => (g.ptrs (v + 1) - g.ptrs v) * (4 * g.n + 8) + 4 + 2 * next
  | .halve (some i) _ _ _ next => (g.ptrs (v + 1) - i - 1) * (4 * g.n + 8) + 2 * g.n + 4 + 2 * next
  | .done => 0

private theorem need_step (h : Inv g s) {v c : Nat} (hv : v < g.n) {s' : St} (hs : step g s v c = some s')
    (hn : s.pc v ≠ .done) : need g v (s'.pc v) < need g v (s.pc v) := by
  have hok := h.ok v hv
  have hpcs : ∀ p, (s.goto v p).pc v = p := fun p => upd_same _ _ _
  have hpcw : ∀ x y p, ((s.write x y).goto v p).pc v = p := fun x y p => upd_same _ _ _
  have hmul : ∀ i, i < g.ptrs (v + 1) → (g.ptrs (v + 1) - i) * (4 * g.n + 8) =
      (g.ptrs (v + 1) - i - 1) * (4 * g.n + 8) + (4 * g.n + 8) := by
    intro i hi
    have : g.ptrs (v + 1) - i = (g.ptrs (v + 1) - i - 1) + 1 := by omega
    rw [this, Nat.add_mul]
    simp
  have hsub : ∀ i, g.ptrs (v + 1) - (i + 1) = g.ptrs (v + 1) - i - 1 := fun i => by omega
  unfold UnionFind.step at hs
  cases hpc : s.pc v with
  | seek k vs idx =>
    rw [hpc] at hs hok
    obtain ⟨h1, h2, h3⟩ := hok
    have hidx : idx ≤ v := h3 ▸ target_le h1
    have hrd := h.good.le _ _ (read_mem (h.good.nonempty idx) c)
    simp only at hs
    rw [if_neg (by omega)] at hs
    cases hs
    split
    · next hne =>
      rw [hpcs]
      cases k <;> simp only [need] <;> omega
    · next hne =>
      rw [hpcs]
      cases k with
      | none => simp only [need, found]; omega
      | some i =>
        have : vs ≤ v := h2.1
        simp only [need, found]; omega
  | climb k vs prev curr =>
    rw [hpc] at hs hok
    obtain ⟨h1, h2, h3, h4, h5, h6, h7, h8, h9⟩ := hok
    simp only at hs
    rw [if_neg (by omega)] at hs
    cases hs
    split
    · rw [hpcs]
      cases k <;> simp only [need] <;> omega
    · rw [hpcs]
      cases k with
      | none => simp only [need, found]; omega
      | some i =>
        have : vs ≤ v := h2.1
        simp only [need, found]; omega
  | halve k vs prev curr next =>
    rw [hpc] at hs hok
    obtain ⟨h1, h2, h3, h4, h5, _⟩ := hok
    simp only at hs
    rw [if_neg (by omega)] at hs
    cases hs
    rw [hpcw]
    cases k <;> simp only [need] <;> omega
  | edge i vs =>
    rw [hpc] at hs hok
    simp only at hs
    cases hs
    split
    · next hi =>
      have := hmul i hi
      split
      · rw [hpcs]; simp only [need, hsub]; omega
      · split
        · rw [hpcs]; simp only [need]; omega
        · rw [hpcs]; simp only [need, hsub]; omega
    · rw [hpcs]; simp only [need]; omega
  | hook i vs os =>
    rw [hpc] at hs hok
    obtain ⟨h1, h2, h3, h4, h5⟩ := hok
    have hvs : vs ≤ v := h2.1
    simp only at hs
    split at hs
    · cases hs
      rw [hpcs]; simp only [need, hsub]; omega
    · next hne =>
      split at hs
      · next hlt =>
        rw [if_neg (by omega)] at hs
        split at hs
        · cases hs
          rw [hpcw]; simp only [need, hsub]; omega
        · next hr =>
          cases hs
          have := h.good.down os
          rw [hpcs]; simp only [need]; omega
      · next hlt =>
        rw [if_neg (by omega)] at hs
        split at hs
        · cases hs
          rw [hpcw]; simp only [need, hsub]; omega
        · next hr =>
          cases hs
          have := h.good.down vs
          rw [hpcs]; simp only [need]; omega
  | done => exact absurd hpc hn

private theorem step_other {v u c : Nat} {s' : St} (hs : step g s v c = some s') (hu : u ≠ v) : s'.pc u = s.pc u := by
  have h1 : ∀ p, (s.goto v p).pc u = s.pc u := fun p => upd_ne _ _ hu
  have h2 : ∀ x y p, ((s.write x y).goto v p).pc u = s.pc u := fun x y p => upd_ne _ _ hu
  unfold UnionFind.step at hs
  cases hpc : s.pc v <;> rw [hpc] at hs <;> simp only at hs
  case edge i vs =>
    cases hs
    split
    · split
      · exact h1 _
      · split
        · exact h1 _
        · exact h1 _
    · exact h1 _
  all_goals
    repeat' split at hs
    all_goals cases hs
    all_goals first
      | rfl
      | exact h1 _
      | exact h2 _ _ _

/-- The tasks are wait-free: a task is done after a number of its own steps that depends only on the
length of its row and on the number of vertices. -/
theorem union_find_wait_free (sched : List (Nat × Nat)) (hx : ∀ x ∈ sched, x.1 < g.n)
    (hr : run g (start g) sched = some s) {v : Nat} (hv : v < g.n)
    (hc : (g.ptrs (v + 1) - g.ptrs v) * (4 * g.n + 8) + 2 * g.n + 5 ≤ (sched.map Prod.fst).count v) :
    s.pc v = .done := by
  have key : ∀ (sched : List (Nat × Nat)) (s0 s : St), Inv g s0 → (∀ x ∈ sched, x.1 < g.n) →
      run g s0 sched = some s → s.pc v = .done ∨ need g v (s.pc v) + (sched.map Prod.fst).count v ≤ need g v (s0.pc v) := by
    intro sched
    induction sched with
    | nil =>
      intro s0 s _ _ hr
      cases hr
      exact Or.inr (Nat.le_refl _)
    | cons x rest ih =>
      obtain ⟨u, c⟩ := x
      intro s0 s hI hx hr
      have hu := hx (u, c) List.mem_cons_self
      obtain ⟨s1, e, h1⟩ := hI.step (c := c) hu
      unfold run at hr
      rw [e] at hr
      have ih := ih s1 s h1 (fun x hx' => hx x (List.mem_cons_of_mem _ hx')) hr
      by_cases euv : u = v
      · subst euv
        by_cases hd : s0.pc u = .done
        · -- done stays done
          have e1 : s1.pc u = .done := by
            unfold UnionFind.step at e
            rw [hd] at e
            cases e
            exact hd
          rcases ih with h | h
          · exact Or.inl h
          · rw [e1] at h
            refine Or.inl ?_
            have hz : need g u (s.pc u) = 0 := by
              have : need g u .done = 0 := rfl
              omega
            revert hz
            cases s.pc u with
            | seek k _ _ => cases k <;> simp [need]
            | climb k _ _ _ => cases k <;> simp [need]
            | halve k _ _ _ _ => cases k <;> simp [need]
            | _ => simp [need]
        · have hlt : need g u (s1.pc u) < need g u (s0.pc u) := need_step hI hu e hd
          rcases ih with h | h
          · exact Or.inl h
          · refine Or.inr ?_
            rw [List.map_cons, List.count_cons_self]
            omega
      · rw [step_other e (Ne.symm euv)] at ih
        rcases ih with h | h
        · exact Or.inl h
        · refine Or.inr ?_
          rw [List.map_cons, List.count_cons_of_ne euv]
          exact h
  rcases key sched _ s (inv_start g) hx hr with h | h
  · exact h
  · have e : need g v ((start g).pc v) = (g.ptrs (v + 1) - g.ptrs v) * (4 * g.n + 8) + 2 * g.n + 5 := rfl
    rw [e] at h
    have hz : need g v (s.pc v) = 0 := by omega
    revert hz
    cases s.pc v with
    | seek k _ _ => cases k <;> simp [need]
    | climb k _ _ _ => cases k <;> simp [need]
    | halve k _ _ _ _ => cases k <;> simp [need]
    | edge _ _ => simp [need]
    | hook _ _ _ => simp [need]
    | done => intro _; rfl

/-! ## Symmetry is needed; the hypotheses can be met -/

/-- Round-robin, always the newest value. -/
private def rounds (n k : Nat) : List (Nat × Nat) :=
  (List.range k).flatMap fun _ => (List.range n).map fun v => (v, 0)

/-- One entry `(0, 1)` without its mirror image: the vertices stay apart although an edge joins them. -/
private def oneWay : Graph := { n := 2, ptrs := fun v => if v = 0 then 0 else 1, inds := fun _ => 1, skip := fun _ => false }

theorem union_find_asymmetric_violated :
    Adj oneWay 0 1 ∧ ∃ s, run oneWay (start oneWay) (rounds 2 6) = some s ∧ (∀ v < 2, s.pc v = .done) ∧
      s.fa 0 = 0 ∧ s.fa 1 = 1 := by
  refine ⟨⟨by decide, 0, by decide⟩, _, rfl, ?_⟩
  decide

/-- Two components, `0 - 3 - 1 - 4` and `2 - 5`. -/
private def two : Graph :=
  { n := 6
    ptrs := fun v => [0, 1, 3, 4, 6, 7, 8].getD v 8
    inds := fun i => [3, 3, 4, 5, 0, 1, 1, 2].getD i 0
    skip := fun _ => false }

private theorem two_symm : ∀ v w, Adj two v w → Adj two w v := by
  have h : ∀ v < 6, ∀ i < 8, (two.ptrs v ≤ i ∧ i < two.ptrs (v + 1)) →
      two.inds i < 6 ∧ two.ptrs (two.inds i) ≤ (i + 4) % 8 ∧ (i + 4) % 8 < two.ptrs (two.inds i + 1) ∧
      two.inds ((i + 4) % 8) = v := by decide
  rintro v w ⟨hv, i, h1, h2, _, rfl⟩
  have hi : i < 8 := by
    have : two.ptrs (v + 1) ≤ 8 := by
      have : v < 6 := hv
      have hp : ∀ v < 6, two.ptrs (v + 1) ≤ 8 := by decide
      exact hp v this
    omega
  obtain ⟨a, b, c, d⟩ := h v hv i hi ⟨h1, h2⟩
  exact ⟨a, _, b, c, rfl, d⟩

example : ∃ s, run two (start two) (rounds 6 20) = some s ∧ (∀ v < 6, s.pc v = .done) ∧
    (List.range 6).map s.fa = [0, 0, 2, 0, 1, 2] ∧ (∀ v w, Adj two v w → Adj two w v) := by
  refine ⟨_, rfl, ?_, ?_, two_symm⟩ <;> decide +kernel

/-- Stale reads: always the oldest value of a cell. -/
example : ∃ s, run two (start two) (((rounds 6 20).map fun x => (x.1, 5)) ++ (rounds 6 3)) = some s ∧
    ∀ v < 6, s.pc v = .done := by
  refine ⟨_, rfl, ?_⟩
  decide +kernel

end Verif.UnionFind
