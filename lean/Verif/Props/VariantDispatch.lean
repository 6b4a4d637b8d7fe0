import Verif.Proof.VariantDispatch

/-!
Properties of the dispatch over variants.
-/
namespace Verif.VariantDispatch

open Classical in
/-- The visitor is called exactly once, with the alternatives that the variants hold, if it can be called with them; otherwise it is not called. -/
theorem dispatch_exact (callable : List Nat → Bool) (sizes cur : List Nat) (h0 : sizes ≠ []) (hs : ∀ k, k < sizes.length → 0 < sizes.getD k 0)
    (hl : cur.length = sizes.length) :
    dispatch callable sizes cur = if callable cur = true ∧ ∀ k, k < sizes.length → cur.getD k 0 < sizes.getD k 0 then [cur] else [] := by
  obtain ⟨pre, c, rfl⟩ : ∃ p c, cur = p ++ [c] := by
    rcases List.eq_nil_or_concat cur with h | ⟨p, d, h⟩
    · subst h
      exact absurd (List.eq_nil_of_length_eq_zero hl.symm) h0
    · exact ⟨p, d, by simpa using h⟩
  simp only [List.length_append, List.length_singleton] at hl
  have hn : pre.length = sizes.length - 1 := by omega
  rw [dispatch, traverse_eq callable sizes hs pre _ hn (by omega) c [] _ []]
  have hp := hs (sizes.length - 1) (by omega)
  have e : (callable (pre ++ [c]) = true ∧ ([] : List Nat) = [] ∧ c ≤ sizes.getD (sizes.length - 1) 0 - 1 ∧ Below sizes pre) ↔
      (callable (pre ++ [c]) = true ∧ ∀ k, k < sizes.length → (pre ++ [c]).getD k 0 < sizes.getD k 0) := by
    have hb := below_snoc sizes pre c
    rw [hn] at hb
    have hq : (∀ k, k < sizes.length → (pre ++ [c]).getD k 0 < sizes.getD k 0) ↔ Below sizes (pre ++ [c]) := by
      unfold Below
      rw [List.length_append, List.length_singleton, hl]
    rw [hq, hb]
    constructor
    · rintro ⟨h1, -, h3, h4⟩; exact ⟨h1, h4, by omega⟩
    · rintro ⟨h1, h2, h3⟩; exact ⟨h1, rfl, by omega, h2⟩
  by_cases q : callable (pre ++ [c]) = true ∧ ∀ k, k < sizes.length → (pre ++ [c]).getD k 0 < sizes.getD k 0
  · rw [if_pos (e.2 q), if_pos q]
  · rw [if_neg (fun k => q (e.1 k)), if_neg q]

/-- With values in all variants and a visitor for all alternatives there is exactly one call. -/
theorem dispatch_once (callable : List Nat → Bool) (sizes cur : List Nat) (h0 : sizes ≠ []) (hl : cur.length = sizes.length)
    (hc : ∀ k, k < sizes.length → cur.getD k 0 < sizes.getD k 0) (hv : callable cur = true) : dispatch callable sizes cur = [cur] := by
  rw [dispatch_exact callable sizes cur h0 (fun k hk => Nat.lt_of_le_of_lt (Nat.zero_le _) (hc k hk)) hl, if_pos ⟨hv, hc⟩]

/-- Three variants with two, three and four alternatives. -/
example : dispatch (fun _ => true) [2, 3, 4] [1, 0, 2] = [[1, 0, 2]] :=
  dispatch_once _ _ _ (by decide) rfl (by decide) rfl

/-- Nothing is called, and nothing reported, for a variant without value (`std::visit` throws). -/
theorem valueless_silent (callable : List Nat → Bool) (n : Nat) (hn : 0 < n) : dispatch callable [n] [2 ^ 64 - 1] = [] ∨ 2 ^ 64 - 1 < n := by
  by_cases h : 2 ^ 64 - 1 < n
  · exact Or.inr h
  · refine Or.inl ?_
    rw [dispatch_exact callable [n] [2 ^ 64 - 1] (by simp) (fun k hk => by
      have : k = 0 := by simpa using hk
      subst this
      exact hn) rfl, if_neg]
    rintro ⟨-, k⟩
    exact h (k 0 (by simp))

end Verif.VariantDispatch
