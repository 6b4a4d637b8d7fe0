import Verif.Spec.Sort
namespace Verif.Sort

/-- Two order-equivalent bijections of `[0,n)` are equal. -/
theorem bij_unique (n : Nat) (p q : Nat → Nat)
    (p1 : ∀ i, i < n → p i < n) (p2 : ∀ k, k < n → ∃ i, i < n ∧ p i = k)
    (q1 : ∀ i, i < n → q i < n) (q2 : ∀ k, k < n → ∃ i, i < n ∧ q i = k)
    (h : ∀ i j, i < n → j < n → (p i < p j ↔ q i < q j)) : ∀ i, i < n → p i = q i := by
  have key : ∀ m i, i < n → p i = m → p i = q i := by
    intro m
    induction m using Nat.strongRecOn with
    | _ m ih =>
      intro i hi hm
      rcases Nat.lt_trichotomy (p i) (q i) with hlt | heq | hgt
      · -- the element that q sends to `p i` comes earlier, contradiction
        obtain ⟨j, hj, e⟩ := q2 (p i) (p1 i hi)
        have h1 : q j < q i := by omega
        have h2 : p j < p i := (h j i hj hi).2 h1
        have := ih (p j) (by omega) j hj rfl
        omega
      · exact heq
      · obtain ⟨j, hj, e⟩ := p2 (q i) (q1 i hi)
        have h2 : p j < p i := by omega
        have := ih (p j) (by omega) j hj rfl
        have h1 : q j < q i := (h j i hj hi).1 h2
        omega
  exact fun i hi => key (p i) i hi rfl

/-- The stable sort of an input is unique. -/
theorem StableSort.unique {α : Type} {n : Nat} {lt : α → α → Prop} {inp o1 o2 : Nat → α}
    (h1 : StableSort n lt inp o1) (h2 : StableSort n lt inp o2) : ∀ k, k < n → o1 k = o2 k := by
  obtain ⟨p, p1, p2, p3, p4⟩ := h1
  obtain ⟨q, q1, q2, q3, q4⟩ := h2
  have he := bij_unique n p q p1 p2 q1 q2 (fun i j hi hj => (p4 i j hi hj).trans (q4 i j hi hj).symm)
  intro k hk
  obtain ⟨i, hi, rfl⟩ := p2 k hk
  rw [p3 i hi, he i hi, q3 i hi]

/-- A stably sorted output is in order. -/
theorem StableSort.sorted {α : Type} {n : Nat} {lt : α → α → Prop} {inp out : Nat → α}
    (h : StableSort n lt inp out) : ∀ i j, i < j → j < n → ¬ lt (out j) (out i) := by
  obtain ⟨p, p1, p2, p3, p4⟩ := h
  intro i j hij hj hlt
  obtain ⟨a, ha, rfl⟩ := p2 i (by omega)
  obtain ⟨b, hb, rfl⟩ := p2 j hj
  rw [p3 a ha, p3 b hb] at hlt
  have := (p4 b a hb ha).2 (Or.inl hlt)
  omega

end Verif.Sort
