import Verif.Spec.Particles

/-! The map. -/
namespace Verif.Particles

variable {K : Type} [Field K]

theorem lookup_cons_if (p : Particles K) (n : String) (b : Attr K) (k : String) : List.lookup k ((n, b) :: p) = if k = n then some b else p.lookup k := by
  rw [List.lookup_cons]
  by_cases hk : k = n
  · subst hk; simp only [beq_self_eq_true, if_true]
  · have : (k == n) = false := by simpa using hk
    simp only [this, if_neg hk]

theorem lookup_append_singleton (p : Particles K) (name : String) (a : Attr K) (k : String) (h : p.lookup name = none) :
    (p ++ [(name, a)]).lookup k = if k = name then some a else p.lookup k := by
  induction p with
  | nil => exact lookup_cons_if _ _ _ _
  | cons e p ih =>
    obtain ⟨n, b⟩ := e
    rw [lookup_cons_if] at h
    split_ifs at h with hne
    rw [List.cons_append, lookup_cons_if, lookup_cons_if, ih h]
    by_cases hk : k = n
    · subst hk
      rw [if_pos rfl, if_neg fun e => hne e.symm, if_pos rfl]
    · rw [if_neg hk, if_neg hk]

theorem lookup_map_replace (p : Particles K) (name : String) (a : Attr K) (k : String) :
    (p.map fun e => if e.1 = name then (name, a) else e).lookup k = if k = name ∧ (p.lookup name).isSome then some a else p.lookup k := by
  induction p with
  | nil => rw [if_neg fun h => by simp at h]; rfl
  | cons e p ih =>
    obtain ⟨n, b⟩ := e
    rw [List.map_cons, lookup_cons_if, lookup_cons_if]
    by_cases hn : n = name
    · subst hn
      rw [if_pos rfl, lookup_cons_if, ih, if_pos rfl]
      by_cases hk : k = n
      · rw [if_pos hk, if_pos ⟨hk, rfl⟩]
      · rw [if_neg hk, if_neg fun h => hk h.1, if_neg fun h => hk h.1, if_neg hk]
    · have hn' : name ≠ n := Ne.symm hn
      by_cases hk : k = n
      · have : k ≠ name := fun h => hn (hk.symm.trans h)
        simp only [if_neg hn, lookup_cons_if, if_pos hk, this, false_and, if_false]
      · simp only [if_neg hn, lookup_cons_if, if_neg hk, if_neg hn', ih]

theorem lookup_put (p : Particles K) (name : String) (a : Attr K) (k : String) : (put p name a).lookup k = if k = name then some a else p.lookup k := by
  unfold put
  split_ifs with h hk hk
  · rw [lookup_map_replace, if_pos ⟨hk, h⟩]
  · rw [lookup_map_replace, if_neg fun h => hk h.1]
  · rw [lookup_append_singleton _ _ _ _ (Option.not_isSome_iff_eq_none.1 h), if_pos hk]
  · rw [lookup_append_singleton _ _ _ _ (Option.not_isSome_iff_eq_none.1 h), if_neg hk]

/-- The names of a map are different. -/
theorem append_lookup : ∀ (other p : Particles K), (other.map Prod.fst).Nodup → (∀ e ∈ other, ∀ a, p.lookup e.1 = some a → a.kind = e.2.kind) →
    ∃ p', append p other = some p' ∧ ∀ k, p'.lookup k = match other.lookup k, p.lookup k with
      | some b, some a => some ⟨a.kind, a.vals ++ b.vals⟩
      | some b, none => some b
      | none, r => r := by
  intro other
  induction other with
  | nil => intro p _ _; exact ⟨p, rfl, fun k => by simp [List.lookup]⟩
  | cons e l ih =>
    intro p hn hk
    obtain ⟨n, b⟩ := e
    rw [List.map_cons, List.nodup_cons] at hn
    have hnl : l.lookup n = none := by
      rw [List.lookup_eq_none_iff]
      rintro ⟨m, c⟩ hm
      simp only [ne_eq, bne_iff_ne]
      rintro rfl
      exact hn.1 (List.mem_map.2 ⟨_, hm, rfl⟩)
    obtain ⟨p1, e1, l1⟩ : ∃ p1, appendOne p (n, b) = some p1 ∧ ∀ k, p1.lookup k = if k = n then (match p.lookup n with | some a => some ⟨a.kind, a.vals ++ b.vals⟩ | none => some b) else p.lookup k := by
      unfold appendOne tryGet
      cases hp : p.lookup n with
      | none => exact ⟨_, rfl, fun k => lookup_put _ _ _ _⟩
      | some a =>
        have := hk (n, b) (by simp) a hp
        exact ⟨_, if_pos this, fun k => lookup_put _ _ _ _⟩
    obtain ⟨p', e2, l2⟩ := ih p1 hn.2 (by
      intro e he a ha
      rw [l1] at ha
      have hne : e.1 ≠ n := fun h => hn.1 (List.mem_map.2 ⟨e, he, h⟩)
      rw [if_neg hne] at ha
      exact hk e (by simp [he]) a ha)
    refine ⟨p', ?_, fun k => ?_⟩
    · rw [append, List.foldlM_cons, e1]
      exact e2
    · rw [l2, l1]
      by_cases hkn : k = n
      · subst hkn
        rw [hnl, if_pos rfl, List.lookup_cons]
        simp only [beq_self_eq_true]
        cases p.lookup k <;> rfl
      · have : (k == n) = false := by simpa using hkn
        rw [if_neg hkn, List.lookup_cons]
        simp [this]

end Verif.Particles
