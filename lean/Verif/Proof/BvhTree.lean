import Verif.Proof.BvhRefit
/-! Binary trees with the numbers that the construction gives to their nodes. -/
namespace Verif.Bvh

namespace Tree

def leaves (u : Tree) : Nat := u.prims.length

theorem leaves_node (l r : Tree) : (node l r).leaves = l.leaves + r.leaves := by simp [leaves, prims]

theorem leaves_leaf (p : Nat) : (leaf p).leaves = 1 := rfl

theorem leaves_pos (u : Tree) : 0 < u.leaves := by
  induction u with
  | leaf p => exact Nat.zero_lt_one
  | node l r ihl _ => rw [leaves_node]; omega

theorem size_leaves (u : Tree) : u.size + 1 = 2 * u.leaves := u.size_eq

def isLeaf : Tree → Bool
  | leaf _ => true
  | node _ _ => false

end Tree

open Tree

/-- A node: its position, subtree, number, first leaf, the number of its parent, and whether it is the root or a right child. -/
structure Ent where
  v : Nat
  u : Tree
  x : Nat
  i : Nat
  p : Int
  top : Bool

/-- All nodes of a tree, in the order of their positions. -/
def ents : Tree → Nat → Nat → Nat → Int → Bool → List Ent
  | leaf q, v, x, i, p, b => [⟨v, leaf q, x, i, p, b⟩]
  | node l r, v, x, i, p, b => ⟨v, node l r, x, i, p, b⟩ ::
      (ents l (v + 1) (i + l.leaves - 1) i x false ++ ents r (v + 1 + l.size) (i + l.leaves) (i + l.leaves) x true)

theorem ents_root (u : Tree) (v x i : Nat) (p : Int) (b : Bool) : ⟨v, u, x, i, p, b⟩ ∈ ents u v x i p b := by
  cases u <;> simp [ents]

theorem ents_v (u : Tree) : ∀ (v x i : Nat) (p : Int) (b : Bool), (ents u v x i p b).map (·.v) = List.range' v u.size := by
  induction u with
  | leaf q => intro v x i p b; rfl
  | node l r ihl ihr =>
    intro v x i p b
    rw [ents, List.map_cons, List.map_append, ihl, ihr, show (node l r).size = (l.size + r.size) + 1 from rfl, List.range'_succ,
      ← List.range'_append_1]

theorem ents_inj {u : Tree} {v x i : Nat} {p : Int} {b : Bool} {e e' : Ent} (h : e ∈ ents u v x i p b) (h' : e' ∈ ents u v x i p b)
    (hv : e.v = e'.v) : e = e' := by
  obtain ⟨a, ha⟩ := List.mem_iff_getElem?.1 h
  obtain ⟨c, hc⟩ := List.mem_iff_getElem?.1 h'
  have key : ∀ (a : Nat) (e : Ent), (ents u v x i p b)[a]? = some e → a = e.v - v := by
    intro a e ha
    have h1 : ((ents u v x i p b).map (·.v))[a]? = some e.v := by rw [List.getElem?_map, ha]; rfl
    have hlt : a < u.size := by
      obtain ⟨h2, _⟩ := List.getElem?_eq_some_iff.1 h1
      rwa [ents_v, List.length_range'] at h2
    rw [ents_v, List.getElem?_range' hlt] at h1
    have := Option.some.inj h1; omega
  have : a = c := by rw [key a e ha, key c e' hc, hv]
  subst this
  rw [ha] at hc
  exact Option.some.inj hc

theorem ents_sub {tr : Tree} (u : Tree) : ∀ {v x i : Nat} {p : Int} {b : Bool}, tr.sub v = some u → ∀ e ∈ ents u v x i p b, tr.sub e.v = some e.u := by
  induction u with
  | leaf q =>
    intro v x i p b h e he
    rw [ents, List.mem_singleton] at he
    subst he
    exact h
  | node l r ihl ihr =>
    intro v x i p b h e he
    obtain ⟨h1, h2⟩ := sub_node h
    simp only [ents, List.mem_cons, List.mem_append] at he
    rcases he with rfl | he | he
    · exact h
    · exact ihl h1 e he
    · exact ihr h2 e he

theorem ents_exists {tr u : Tree} {v x : Nat} {p : Int} {b : Bool} (h : tr.sub v = some u) : ∃ e ∈ ents tr 0 x 0 p b, e.v = v ∧ e.u = u := by
  have : v ∈ (ents tr 0 x 0 p b).map (·.v) := by
    rw [ents_v]
    simpa using sub_lt h
  obtain ⟨e, he, rfl⟩ := List.mem_map.1 this
  have := ents_sub tr (Tree.sub_zero tr) e he
  rw [h] at this
  exact ⟨e, he, rfl, (Option.some.inj this).symm⟩

theorem ents_bounds (u : Tree) : ∀ {v x i : Nat} {p : Int} {b : Bool}, ∀ e ∈ ents u v x i p b, i ≤ e.i ∧ e.i + e.u.leaves ≤ i + u.leaves ∧
    e.v + e.u.size ≤ v + u.size ∧ (e.v + e.u.size = v + u.size ↔ e.i + e.u.leaves = i + u.leaves) := by
  induction u with
  | leaf q =>
    intro v x i p b e he
    rw [ents, List.mem_singleton] at he
    subst he
    simp
  | node l r ihl ihr =>
    intro v x i p b e he
    simp only [ents, List.mem_cons, List.mem_append] at he
    have h1 := r.leaves_pos
    have h2 := r.size_pos
    rw [leaves_node, show (node l r).size = l.size + r.size + 1 from rfl]
    rcases he with rfl | he | he
    · dsimp only
      rw [leaves_node, show (node l r).size = l.size + r.size + 1 from rfl]
      exact ⟨Nat.le_refl _, by omega, by omega, ⟨fun _ => by omega, fun _ => by omega⟩⟩
    · obtain ⟨a1, a2, a3, a4⟩ := ihl e he
      exact ⟨a1, by omega, by omega, ⟨fun _ => by omega, fun _ => by omega⟩⟩
    · obtain ⟨a1, a2, a3, a4⟩ := ihr e he
      exact ⟨by omega, by omega, by omega, ⟨fun h => by have := a4.1 (by omega); omega, fun h => by have := a4.2 (by omega); omega⟩⟩

/-- The first leaves of all nodes. -/
def lefts : Tree → Nat → List Nat
  | leaf _, i => [i]
  | node l r, i => i :: (lefts l i ++ lefts r (i + l.leaves))

theorem ents_i (u : Tree) : ∀ (v x i : Nat) (p : Int) (b : Bool), (ents u v x i p b).map (·.i) = lefts u i := by
  induction u with
  | leaf q => intro v x i p b; rfl
  | node l r ihl ihr =>
    intro v x i p b
    rw [ents, List.map_cons, List.map_append, ihl, ihr, lefts]

theorem lefts_length (u : Tree) : ∀ i, (lefts u i).length = u.size := by
  induction u with
  | leaf q => intro i; rfl
  | node l r ihl ihr => intro i; simp [lefts, ihl, ihr, Tree.size]

theorem lefts_bounds (u : Tree) : ∀ i, ∀ k ∈ lefts u i, i ≤ k ∧ k < i + u.leaves := by
  induction u with
  | leaf q => intro i k hk; rw [lefts, List.mem_singleton] at hk; rw [leaves_leaf]; omega
  | node l r ihl ihr =>
    intro i k hk
    have h1 := r.leaves_pos
    have h2 := l.leaves_pos
    simp only [lefts, List.mem_cons, List.mem_append] at hk
    rw [leaves_node]
    rcases hk with rfl | hk | hk
    · omega
    · have := ihl i k hk; omega
    · have := ihr _ k hk; omega

theorem count_out {u : Tree} {i k : Nat} (h : k < i ∨ i + u.leaves ≤ k) : (lefts u i).count k = 0 := by
  rw [List.count_eq_zero]
  intro hk
  have := lefts_bounds u i k hk
  omega

theorem count_first (u : Tree) : ∀ i, (lefts u i).count i = u.spine + 1 := by
  induction u with
  | leaf q => intro i; simp [lefts, spine]
  | node l r ihl _ =>
    intro i
    have := l.leaves_pos
    rw [lefts, List.count_cons_self, List.count_append, ihl, count_out (u := r) (.inl (by omega)), spine]

theorem ents_pos (u : Tree) : ∀ {v x i : Nat} {p : Int} {b : Bool}, ∀ e ∈ ents u v x i p b,
    e.v + e.u.spine + 1 = v + (lefts u i).countP (· ≤ e.i) := by
  have hall : ∀ (u : Tree) (i k : Nat), i + u.leaves ≤ k + 1 → (lefts u i).countP (· ≤ k) = u.size := by
    intro u i k h
    rw [← lefts_length u i, List.countP_eq_length]
    intro a ha
    have := lefts_bounds u i a ha
    simp only [decide_eq_true_eq]
    omega
  have hnone : ∀ (u : Tree) (i k : Nat), k < i → (lefts u i).countP (· ≤ k) = 0 := by
    intro u i k h
    rw [List.countP_eq_zero]
    intro a ha
    have := lefts_bounds u i a ha
    simp only [decide_eq_true_eq]
    omega
  have hroot : ∀ (u : Tree) (i : Nat), (lefts u i).countP (· ≤ i) = u.spine + 1 := by
    intro u i
    rw [← count_first u i, List.count]
    apply List.countP_congr
    intro a ha
    have := lefts_bounds u i a ha
    simp only [decide_eq_true_eq, beq_iff_eq]
    omega
  induction u with
  | leaf q =>
    intro v x i p b e he
    rw [ents, List.mem_singleton] at he
    subst he
    simp [lefts, spine]
  | node l r ihl ihr =>
    intro v x i p b e he
    simp only [ents, List.mem_cons, List.mem_append] at he
    rcases he with rfl | he | he
    · dsimp only
      rw [hroot]; omega
    · have hb := ents_bounds l e he
      have h1 := e.u.leaves_pos
      have := ihl e he
      rw [lefts, List.countP_cons, List.countP_append, hnone r _ _ (by omega), if_pos (by simpa using hb.1)]
      omega
    · have hb := ents_bounds r e he
      have h1 := l.leaves_pos
      have := ihr e he
      rw [lefts, List.countP_cons, List.countP_append, hall l i _ (by omega), if_pos (by simp; omega)]
      omega

theorem top_after {u : Tree} : ∀ {v x i : Nat} {p : Int}, ∀ e ∈ ents u v x i p false, e.top = true → i < e.i := by
  induction u with
  | leaf q =>
    intro v x i p e he ht
    rw [ents, List.mem_singleton] at he
    subst he
    cases ht
  | node l r ihl _ =>
    intro v x i p e he ht
    simp only [ents, List.mem_cons, List.mem_append] at he
    rcases he with rfl | he | he
    · cases ht
    · exact ihl e he ht
    · have := ents_bounds r e he
      have := l.leaves_pos
      omega

theorem top_count (u : Tree) : ∀ {v x i : Nat} {p : Int} {b : Bool}, ∀ e ∈ ents u v x i p b, e.top = true →
    (lefts u i).count e.i = e.u.spine + 1 := by
  induction u with
  | leaf q =>
    intro v x i p b e he ht
    rw [ents, List.mem_singleton] at he
    subst he
    exact count_first _ i
  | node l r ihl ihr =>
    intro v x i p b e he ht
    simp only [ents, List.mem_cons, List.mem_append] at he
    have h2 := e.u.leaves_pos
    rcases he with rfl | he | he
    · exact count_first _ i
    · have h1 := top_after e he ht
      have hb := ents_bounds l e he
      rw [lefts, List.count_cons, if_neg (by simp; omega), List.count_append, ihl e he ht, count_out (u := r) (.inl (by omega))]
    · have hb := ents_bounds r e he
      have := l.leaves_pos
      rw [lefts, List.count_cons, if_neg (by simp; omega), List.count_append, ihr e he ht, count_out (u := l) (.inr (by omega))]
      omega

/-- The children of a node. -/
theorem ents_kids (u : Tree) : ∀ {v x i : Nat} {p : Int} {b : Bool}, ∀ e ∈ ents u v x i p b, ∀ l r, e.u = node l r →
    ⟨e.v + 1, l, e.i + l.leaves - 1, e.i, e.x, false⟩ ∈ ents u v x i p b ∧
    ⟨e.v + 1 + l.size, r, e.i + l.leaves, e.i + l.leaves, e.x, true⟩ ∈ ents u v x i p b := by
  induction u with
  | leaf q =>
    intro v x i p b e he l r h
    rw [ents, List.mem_singleton] at he
    subst he
    cases h
  | node a c iha ihc =>
    intro v x i p b e he l r h
    simp only [ents, List.mem_cons, List.mem_append] at he ⊢
    rcases he with rfl | he | he
    · cases h
      exact ⟨.inr (.inl (ents_root ..)), .inr (.inr (ents_root ..))⟩
    · obtain ⟨h1, h2⟩ := iha e he l r h
      exact ⟨.inr (.inl h1), .inr (.inl h2)⟩
    · obtain ⟨h1, h2⟩ := ihc e he l r h
      exact ⟨.inr (.inr h1), .inr (.inr h2)⟩

/-- The parent of a node. -/
theorem ents_parent (u : Tree) : ∀ {v x i : Nat} {p : Int} {b : Bool}, ∀ e ∈ ents u v x i p b, e = ⟨v, u, x, i, p, b⟩ ∨
    ∃ e' ∈ ents u v x i p b, ∃ l r, e'.u = node l r ∧ (e = ⟨e'.v + 1, l, e'.i + l.leaves - 1, e'.i, e'.x, false⟩ ∨
      e = ⟨e'.v + 1 + l.size, r, e'.i + l.leaves, e'.i + l.leaves, e'.x, true⟩) := by
  induction u with
  | leaf q =>
    intro v x i p b e he
    rw [ents, List.mem_singleton] at he
    exact .inl he
  | node a c iha ihc =>
    intro v x i p b e he
    simp only [ents, List.mem_cons, List.mem_append] at he ⊢
    rcases he with rfl | he | he
    · exact .inl rfl
    · right
      rcases iha e he with h | ⟨e', h1, l, r, h2, h3⟩
      · exact ⟨_, .inl rfl, a, c, rfl, .inl h⟩
      · exact ⟨e', .inr (.inl h1), l, r, h2, h3⟩
    · right
      rcases ihc e he with h | ⟨e', h1, l, r, h2, h3⟩
      · exact ⟨_, .inl rfl, a, c, rfl, .inr h⟩
      · exact ⟨e', .inr (.inr h1), l, r, h2, h3⟩

/-- What comes after a subtree. -/
theorem ents_next (u : Tree) : ∀ {v x i : Nat} {p : Int} {b : Bool}, ∀ e ∈ ents u v x i p b, e.v + e.u.size < v + u.size →
    ∃ e' ∈ ents u v x i p b, e'.top = true ∧ e'.i = e.i + e.u.leaves ∧ e'.v = e.v + e.u.size := by
  induction u with
  | leaf q =>
    intro v x i p b e he h
    rw [ents, List.mem_singleton] at he
    subst he
    exact absurd h (Nat.lt_irrefl _)
  | node l r ihl ihr =>
    intro v x i p b e he h
    simp only [ents, List.mem_cons, List.mem_append] at he ⊢
    rcases he with rfl | he | he
    · exact absurd h (Nat.lt_irrefl _)
    · obtain ⟨a1, a2, a3, a4⟩ := ents_bounds l e he
      by_cases hlt : e.v + e.u.size < v + 1 + l.size
      · obtain ⟨e', h1, h2⟩ := ihl e he hlt
        exact ⟨e', .inr (.inl h1), h2⟩
      · have := a4.1 (by omega)
        exact ⟨_, .inr (.inr (ents_root ..)), rfl, by dsimp only; omega, by dsimp only; omega⟩
    · obtain ⟨e', h1, h2⟩ := ihr e he (by simp only [Tree.size] at h; omega)
      exact ⟨e', .inr (.inr h1), h2⟩

/-- The numbers of the inner nodes. -/
theorem ents_x (u : Tree) : ∀ {v x i : Nat} {p : Int} {b : Bool}, ∀ e ∈ ents u v x i p b, e.u.isLeaf = false →
    (x = i → i ≤ e.x ∧ e.x + 1 < i + u.leaves) ∧ (x + 1 = i + u.leaves → i < e.x ∧ e.x < i + u.leaves) := by
  induction u with
  | leaf q =>
    intro v x i p b e he h
    rw [ents, List.mem_singleton] at he
    subst he
    cases h
  | node l r ihl ihr =>
    intro v x i p b e he h
    simp only [ents, List.mem_cons, List.mem_append] at he
    have h1 := l.leaves_pos
    have h2 := r.leaves_pos
    rw [leaves_node]
    rcases he with rfl | he | he
    · dsimp only
      exact ⟨fun _ => by omega, fun _ => by omega⟩
    · obtain ⟨_, a⟩ := ihl e he h
      have := a (by omega)
      exact ⟨fun _ => by omega, fun _ => by omega⟩
    · obtain ⟨a, _⟩ := ihr e he h
      have := a rfl
      exact ⟨fun _ => by omega, fun _ => by omega⟩

theorem ents_x_inj (u : Tree) : ∀ {v x i : Nat} {p : Int} {b : Bool}, (x = i ∨ x + 1 = i + u.leaves) → ∀ e ∈ ents u v x i p b, ∀ e' ∈ ents u v x i p b,
    e.u.isLeaf = false → e'.u.isLeaf = false → e.x = e'.x → e = e' := by
  induction u with
  | leaf q =>
    intro v x i p b _ e he e' he' h
    rw [ents, List.mem_singleton] at he
    subst he
    cases h
  | node l r ihl ihr =>
    intro v x i p b hx e he e' he' h h' hxx
    simp only [ents, List.mem_cons, List.mem_append] at he he'
    have h1 := l.leaves_pos
    have h2 := r.leaves_pos
    rw [leaves_node] at hx
    have kl : ∀ e ∈ ents l (v + 1) (i + l.leaves - 1) i x false, e.u.isLeaf = false → i < e.x ∧ e.x < i + l.leaves :=
      fun e he h => (ents_x l e he h).2 (by omega)
    have kr : ∀ e ∈ ents r (v + 1 + l.size) (i + l.leaves) (i + l.leaves) x true, e.u.isLeaf = false →
        i + l.leaves ≤ e.x ∧ e.x + 1 < i + l.leaves + r.leaves :=
      fun e he h => (ents_x r e he h).1 rfl
    rcases he with rfl | he | he <;> rcases he' with rfl | he' | he'
    · rfl
    · have := kl e' he' h'; dsimp only at hxx; omega
    · have := kr e' he' h'; dsimp only at hxx; omega
    · have := kl e he h; dsimp only at hxx; omega
    · exact ihl (.inr (by omega)) e he e' he' h h' hxx
    · have := kl e he h; have := kr e' he' h'; omega
    · have := kr e he h; dsimp only at hxx; omega
    · have := kr e he h; have := kl e' he' h'; omega
    · exact ihr (.inl rfl) e he e' he' h h' hxx

theorem ents_x_surj (u : Tree) : ∀ {v x i : Nat} {p : Int} {b : Bool}, ∀ y,
    ((x = i ∧ i ≤ y ∧ y + 1 < i + u.leaves) ∨ (x + 1 = i + u.leaves ∧ i < y ∧ y < i + u.leaves)) →
    ∃ e ∈ ents u v x i p b, e.u.isLeaf = false ∧ e.x = y := by
  induction u with
  | leaf q => intro v x i p b y h; rw [leaves_leaf] at h; omega
  | node l r ihl ihr =>
    intro v x i p b y h
    have h1 := l.leaves_pos
    have h2 := r.leaves_pos
    rw [leaves_node] at h
    simp only [ents, List.mem_cons, List.mem_append]
    by_cases hy : y = x
    · exact ⟨_, .inl rfl, rfl, hy.symm⟩
    · by_cases hl : y < i + l.leaves
      · obtain ⟨e, a, c⟩ := ihl (v := v + 1) (x := i + l.leaves - 1) (i := i) (p := x) (b := false) y (.inr (by omega))
        exact ⟨e, .inr (.inl a), c⟩
      · obtain ⟨e, a, c⟩ := ihr (v := v + 1 + l.size) (x := i + l.leaves) (i := i + l.leaves) (p := x) (b := true) y (.inl (by omega))
        exact ⟨e, .inr (.inr a), c⟩

/-- The leaves. -/
theorem ents_leaves (u : Tree) : ∀ (v x i : Nat) (p : Int) (b : Bool), ((ents u v x i p b).filter (·.u.isLeaf)).map (·.i) = List.range' i u.leaves := by
  induction u with
  | leaf q => intro v x i p b; rfl
  | node l r ihl ihr =>
    intro v x i p b
    rw [ents, List.filter_cons, if_neg (by simp [isLeaf]), List.filter_append, List.map_append, ihl, ihr, leaves_node, List.range'_append_1]

theorem leaf_x (u : Tree) : ∀ {v x i : Nat} {p : Int} {b : Bool}, (x = i ∨ x + 1 = i + u.leaves) → ∀ e ∈ ents u v x i p b,
    (e.x = e.i ∨ e.x + 1 = e.i + e.u.leaves) := by
  induction u with
  | leaf q =>
    intro v x i p b hx e he
    rw [ents, List.mem_singleton] at he
    subst he
    exact hx
  | node l r ihl ihr =>
    intro v x i p b hx e he
    have h1 := l.leaves_pos
    simp only [ents, List.mem_cons, List.mem_append] at he
    rcases he with rfl | he | he
    · exact hx
    · exact ihl (.inr (by omega)) e he
    · exact ihr (.inl rfl) e he

end Verif.Bvh
