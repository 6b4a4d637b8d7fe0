import Verif.Proof.UniquePtr
/-! Property C31: `UniquePtr` owns exactly once. -/
namespace Verif.UniquePtr

/-- After any history of calls on any number of pointers the state is the specified one, and every
further call within its documented domain (including moving to itself and swapping with itself) runs
without undefined behaviour and has its specified effect. -/
theorem unique_ptr_refines {s : St} {a : Abs} (h : Reach s a) :
    Shows s a ∧ ∀ op a', Effect a op a' → ∃ s', step s op = some s' ∧ Reach s' a' ∧ Shows s' a' := by
  have hs := reach_shows h
  refine ⟨hs, fun op a' he => ?_⟩
  obtain ⟨s', h1, h2⟩ := step_spec hs he
  exact ⟨s', h1, .call op s s' a a' h he h1, h2⟩

/-- No object is deleted twice, an object held by a pointer is alive, no two pointers hold the same
object, and an object the client took over by `release` is not deleted behind its back. -/
theorem unique_ptr_owns_once {s : St} {a : Abs} (h : Reach s a) :
    (s.deleted.map (·.1)).Nodup ∧
    (∀ i d o, s.obj i = some ⟨d, some o⟩ → o < s.next ∧ o ∉ s.deleted.map (·.1) ∧ o ∉ s.raw) ∧
    (∀ i j d d' o, s.obj i = some ⟨d, some o⟩ → s.obj j = some ⟨d', some o⟩ → i = j) ∧
    (∀ o ∈ s.raw, o ∉ s.deleted.map (·.1)) := by
  have hs := reach_shows h
  refine ⟨hs.once, ?_, ?_, ?_⟩
  · intro i d o ho
    obtain ⟨h1, h2⟩ := (hs.held i d o).1 ho
    refine ⟨by rw [hs.num]; exact h1, ?_, ?_⟩
    · intro hin
      obtain ⟨⟨o', d'⟩, h3, rfl⟩ := List.mem_map.1 hin
      have := ((hs.deleted o' d').1 h3).2
      rw [h2] at this
      cases this
    · intro hin
      have := ((hs.client o).1 hin).2
      rw [h2] at this
      cases this
  · intro i j d d' o hi hj
    have h1 := ((hs.held i d o).1 hi).2
    have h2 := ((hs.held j d' o).1 hj).2
    rw [h1] at h2
    cases h2
    rfl
  · intro o ho hin
    obtain ⟨⟨o', d'⟩, h3, rfl⟩ := List.mem_map.1 hin
    have h1 := ((hs.deleted o' d').1 h3).2
    have h2 := ((hs.client o').1 ho).2
    rw [h1] at h2
    cases h2

/-- When all pointers are gone, every object the client does not own has been deleted, by the deleter it
was entrusted to. -/
theorem unique_ptr_no_leak {s : St} {a : Abs} (h : Reach s a) (hd : ∀ i, s.obj i = none) :
    ∀ o, o < s.next → o ∈ s.raw ∨ ∃ d, (o, d) ∈ s.deleted ∧ a.place o = .deleted d := by
  have hs := reach_shows h
  intro o ho
  rw [hs.num] at ho
  cases hp : a.place o with
  | client => exact Or.inl ((hs.client o).2 ⟨ho, hp⟩)
  | deleted d => exact Or.inr ⟨d, (hs.deleted o d).2 ⟨ho, hp⟩, rfl⟩
  | ptr i d =>
    have := (hs.held i d o).2 ⟨ho, hp⟩
    rw [hd i] at this
    cases this

/-! A history with a move between pointers with different deleters, a self move and destruction. -/

example : ∃ s a, Reach s a ∧ s.deleted = [(1, 8), (0, 7)] ∧ s.raw = [] := by
  refine ⟨_, _, .call (.dtor 0) _ _ _ _ (.call (.moveAssign 0 0) _ _ _ _ (.call (.moveAssign 0 1) _ _ _ _
    (.call (.ctor 1 8 (some 1)) _ _ _ _ (.call (.ctor 0 7 (some 0)) _ _ _ _ (.call .newObj _ _ _ _
      (.call .newObj _ _ _ _ .init .newObj rfl) .newObj rfl) (.ctor 0 7 (some 0) rfl ?_) rfl)
      (.ctor 1 8 (some 1) rfl ?_) rfl) (.moveAssign 0 1 7 8 rfl rfl (by decide)) rfl)
      (.selfMove 0 8 rfl) rfl) (.dtor 0 8 rfl) rfl, by decide, by decide⟩
  · rintro o ⟨⟩; exact ⟨by decide, by decide⟩
  · rintro o ⟨⟩; exact ⟨by decide, by decide⟩

end Verif.UniquePtr
