import Verif.Model.VariantDispatch

namespace Verif.VariantDispatch

/-- The indices are below the sizes. -/
def Below (sizes pre : List Nat) : Prop := ∀ k, k < pre.length → pre.getD k 0 < sizes.getD k 0

theorem below_snoc (sizes pre : List Nat) (d : Nat) : Below sizes (pre ++ [d]) ↔ Below sizes pre ∧ d < sizes.getD pre.length 0 := by
  constructor
  · intro h
    refine ⟨fun k hk => ?_, ?_⟩
    · have := h k (by simp; omega)
      rwa [List.getD_eq_getElem?_getD, List.getElem?_append_left hk, ← List.getD_eq_getElem?_getD] at this
    · have := h pre.length (by simp)
      simpa using this
  · rintro ⟨h1, h2⟩ k hk
    simp only [List.length_append, List.length_singleton] at hk
    by_cases e : k = pre.length
    · subst e; simpa using h2
    · rw [List.getD_eq_getElem?_getD, List.getElem?_append_left (by omega), ← List.getD_eq_getElem?_getD]
      exact h1 k (by omega)

open Classical in
theorem traverse_zero (callable : List Nat → Bool) (sizes : List Nat) (c : Nat) (post : List Nat) (I : Nat) (Js : List Nat) :
    traverse callable sizes (c :: post) 0 I Js = if callable (c :: post) = true ∧ post = Js ∧ c ≤ I then [c :: post] else [] := by
  induction I with
  | zero =>
    rw [traverse]
    by_cases h : callable (c :: post) = true ∧ post = Js ∧ c ≤ 0
    · obtain ⟨h1, rfl, h3⟩ := h
      obtain rfl : c = 0 := by omega
      simp [h1]
    · rw [if_neg h]
      have : ¬((callable (0 :: Js) && ((0 :: Js) == c :: post)) = true) := by
        simp only [Bool.and_eq_true, beq_iff_eq, List.cons.injEq]
        rintro ⟨h1, rfl, rfl⟩
        exact h ⟨h1, rfl, Nat.le_refl 0⟩
      rw [if_neg this]
  | succ I ih =>
    rw [traverse]
    by_cases k : (callable ((I + 1) :: Js) && (((I + 1) :: Js) == c :: post)) = true
    · rw [if_pos k]
      simp only [Bool.and_eq_true, beq_iff_eq, List.cons.injEq] at k
      obtain ⟨h1, rfl, rfl⟩ := k
      rw [if_pos ⟨h1, rfl, Nat.le_refl _⟩]
    · rw [if_neg k]
      simp only [ih]
      simp only [Bool.and_eq_true, beq_iff_eq, List.cons.injEq] at k
      by_cases h : callable (c :: post) = true ∧ post = Js ∧ c ≤ I
      · rw [if_pos h, if_pos ⟨h.1, h.2.1, by omega⟩]
      · rw [if_neg h, if_neg]
        rintro ⟨h1, h2, h3⟩
        by_cases e : c = I + 1
        · subst e; subst h2; exact k ⟨h1, rfl, rfl⟩
        · exact h ⟨h1, h2, by omega⟩

open Classical in
theorem traverse_eq (callable : List Nat → Bool) (sizes : List Nat) (hs : ∀ k, k < sizes.length → 0 < sizes.getD k 0) (pre : List Nat) (n : Nat) (hn : pre.length = n)
    (hl : n < sizes.length) (c : Nat) (post : List Nat) (I : Nat) (Js : List Nat) :
    traverse callable sizes (pre ++ c :: post) n I Js =
      if callable (pre ++ c :: post) = true ∧ post = Js ∧ c ≤ I ∧ Below sizes pre then [pre ++ c :: post] else [] := by
  induction n generalizing pre c post I Js with
  | zero =>
    obtain rfl : pre = [] := List.eq_nil_of_length_eq_zero hn
    have hb : Below sizes [] := fun k hk => by simp at hk
    rw [List.nil_append, traverse_zero]
    simp only [hb, and_true]
  | succ n ih =>
    obtain ⟨pre', d, rfl⟩ : ∃ p d, pre = p ++ [d] := by
      rcases List.eq_nil_or_concat pre with h | ⟨p, d, h⟩
      · subst h; simp at hn
      · exact ⟨p, d, by simpa using h⟩
    have hn' : pre'.length = n := by simpa using hn
    have key : ∀ I, traverse callable sizes (pre' ++ [d] ++ c :: post) n (sizes.getD n 0 - 1) (I :: Js) =
        if callable (pre' ++ [d] ++ c :: post) = true ∧ post = Js ∧ c = I ∧ Below sizes (pre' ++ [d]) then [pre' ++ [d] ++ c :: post] else [] := by
      intro I
      have := ih pre' hn' (by omega) d (c :: post) (sizes.getD n 0 - 1) (I :: Js)
      rw [List.append_assoc, List.singleton_append, this]
      have hp := hs n (by omega)
      have e : (callable (pre' ++ d :: c :: post) = true ∧ c :: post = I :: Js ∧ d ≤ sizes.getD n 0 - 1 ∧ Below sizes pre') ↔
          (callable (pre' ++ d :: c :: post) = true ∧ post = Js ∧ c = I ∧ Below sizes (pre' ++ [d])) := by
        rw [below_snoc, hn', List.cons.injEq]
        constructor
        · rintro ⟨h1, ⟨h2, h3⟩, h4, h5⟩; exact ⟨h1, h3, h2, h5, by omega⟩
        · rintro ⟨h1, h2, h3, h4, h5⟩; exact ⟨h1, ⟨h3, h2⟩, by omega, h4⟩
      simp only [e]
    induction I with
    | zero =>
      rw [traverse]
      simp only [key]
      by_cases h : callable (pre' ++ [d] ++ c :: post) = true ∧ post = Js ∧ c = 0 ∧ Below sizes (pre' ++ [d])
      · rw [if_pos h, if_pos (show _ ∧ _ ∧ c ≤ 0 ∧ _ from ⟨h.1, h.2.1, by omega, h.2.2.2⟩)]; rfl
      · rw [if_neg h, if_neg (show ¬(_ ∧ _ ∧ c ≤ 0 ∧ _) from fun k => h ⟨k.1, k.2.1, by omega, k.2.2.2⟩)]; rfl
    | succ I ihI =>
      rw [traverse]
      simp only [key, ihI]
      by_cases h : callable (pre' ++ [d] ++ c :: post) = true ∧ post = Js ∧ c = I + 1 ∧ Below sizes (pre' ++ [d])
      · rw [if_pos h, if_pos (show _ ∧ _ ∧ c ≤ I + 1 ∧ _ from ⟨h.1, h.2.1, by omega, h.2.2.2⟩)]; rfl
      · rw [if_neg h]
        by_cases h' : callable (pre' ++ [d] ++ c :: post) = true ∧ post = Js ∧ c ≤ I ∧ Below sizes (pre' ++ [d])
        · rw [if_pos h', if_pos (show _ ∧ _ ∧ c ≤ I + 1 ∧ _ from ⟨h'.1, h'.2.1, by omega, h'.2.2.2⟩)]; rfl
        · rw [if_neg h', if_neg (show ¬(_ ∧ _ ∧ c ≤ I + 1 ∧ _) from fun k => by
            by_cases e : c = I + 1
            · exact h ⟨k.1, k.2.1, e, k.2.2.2⟩
            · exact h' ⟨k.1, k.2.1, by omega, k.2.2.2⟩)]
          rfl

end Verif.VariantDispatch
