import Verif.Model.Resource

/-!
Helper lemmas for C57.
-/
namespace Verif.Resource

variable {arg : Nat → Nat} {map : Nat → Option Rec} {s s' : St} {t : Nat}

@[simp] theorem upd_same {α : Type} (f : Nat → α) (i : Nat) (x : α) : upd f i x i = x := by simp [upd]

theorem upd_ne {α : Type} (f : Nat → α) {i j : Nat} (x : α) (h : j ≠ i) : upd f i x j = f j := by simp [upd, h]

/-- Whether the task has released its memory. -/
def Pc.after : Pc → Bool
  | .unlock | .erase | .done => true
  | _ => false

/-- The tasks in `T` have different arguments; what holds while they run. -/
structure Inv (arg : Nat → Nat) (map : Nat → Option Rec) (T : Nat → Prop) (s : St) : Prop where
  keep : ∀ p, (∀ t, T t → s.pc t = .done → p ≠ arg t) → s.map p = map p
  gone : ∀ t, T t → s.pc t = .done → s.map (arg t) = none
  ok : ∀ t, T t → s.pc t ≠ .find → s.pc t ≠ .bad → (map (arg t)).isSome = true
  bad : ∀ t, T t → s.pc t = .bad → map (arg t) = none
  freed : ∀ p r, (p, r) ∈ s.freed ↔ ∃ t, T t ∧ (s.pc t).after = true ∧ arg t = p ∧ map p = some r
  nodup : (s.freed.map Prod.fst).Nodup

theorem Inv.same (h : Inv arg map T s) (hT : ∀ t t', T t → T t' → arg t = arg t' → t = t') (ht : T t) (hp : s.pc t ≠ .done) :
    s.map (arg t) = map (arg t) := by
  refine h.keep _ fun t' ht' hd e => ?_
  have := hT _ _ ht ht' e
  subst this
  exact hp hd

theorem Inv.step (h : Inv arg map T s) (hT : ∀ t t', T t → T t' → arg t = arg t' → t = t') (ht : T t) :
    ∃ s', Resource.step arg s t = some s' ∧ Inv arg map T s' := by
  have move : ∀ (p : Pc) (owner : Option Nat), s.pc t ≠ .done → p ≠ .done → p.after = (s.pc t).after →
      (p ≠ .bad → (map (arg t)).isSome = true) → (p = .bad → map (arg t) = none) →
      Inv arg map T ({ s with owner := owner }.goto t p) := by
    intro p owner h1 h2 h3 h4 h5
    have cases' : ∀ q, ({ s with owner := owner }.goto t p).pc q = if q = t then p else s.pc q := fun q => rfl
    refine ⟨?_, ?_, ?_, ?_, ?_, h.nodup⟩
    · intro x hx
      refine h.keep x fun q hq hd => hx q hq ?_
      rw [cases', if_neg]
      · exact hd
      · rintro rfl; exact h1 hd
    · intro q hq hd
      rw [cases'] at hd
      by_cases e : q = t
      · rw [if_pos e] at hd; exact absurd hd h2
      · rw [if_neg e] at hd; exact h.gone q hq hd
    · intro q hq hf hb
      rw [cases'] at hf hb
      by_cases e : q = t
      · rw [if_pos e] at hb; subst e; exact h4 hb
      · rw [if_neg e] at hf hb; exact h.ok q hq hf hb
    · intro q hq hb
      rw [cases'] at hb
      by_cases e : q = t
      · rw [if_pos e] at hb; subst e; exact h5 hb
      · rw [if_neg e] at hb; exact h.bad q hq hb
    · intro x r
      refine (h.freed x r).trans ⟨?_, ?_⟩
      · rintro ⟨q, q1, q2, q3⟩
        refine ⟨q, q1, ?_, q3⟩
        rw [cases']
        split
        · next e => subst e; rw [h3]; exact q2
        · exact q2
      · rintro ⟨q, q1, q2, q3⟩
        refine ⟨q, q1, ?_, q3⟩
        rw [cases'] at q2
        split at q2
        · next e => subst e; rw [h3] at q2; exact q2
        · exact q2
  unfold Resource.step
  cases e : s.pc t with
  | find =>
    have hr := h.same hT ht (by rw [e]; simp)
    refine ⟨_, rfl, ?_⟩
    cases hm : map (arg t) with
    | none =>
      rw [hr, hm]
      exact move .bad s.owner (by rw [e]; simp) (by simp) (by rw [e]; rfl) (fun x => absurd rfl x) fun _ => hm
    | some r =>
      rw [hr, hm]
      exact move .lock s.owner (by rw [e]; simp) (by simp) (by rw [e]; rfl) (fun _ => by rw [hm]; rfl) fun x => by cases x
  | lock =>
    have hk := h.ok t ht (by rw [e]; simp) (by rw [e]; simp)
    cases ho : s.owner with
    | none => exact ⟨_, rfl, move .get (some t) (by rw [e]; simp) (by simp) (by rw [e]; rfl) (fun _ => hk) fun x => by cases x⟩
    | some q => exact ⟨s, by simp, h⟩
  | get =>
    have hk := h.ok t ht (by rw [e]; simp) (by rw [e]; simp)
    have hr := h.same hT ht (by rw [e]; simp)
    refine ⟨_, by simp only; rw [hr, if_pos hk], ?_⟩
    exact move .free s.owner (by rw [e]; simp) (by simp) (by rw [e]; rfl) (fun _ => hk) fun x => by cases x
  | free =>
    have hk := h.ok t ht (by rw [e]; simp) (by rw [e]; simp)
    have hr := h.same hT ht (by rw [e]; simp)
    obtain ⟨r, hm⟩ := Option.isSome_iff_exists.1 hk
    have hnew : ∀ r', (arg t, r') ∉ s.freed := by
      intro r' hr'
      obtain ⟨q, q1, q2, q3, -⟩ := (h.freed _ _).1 hr'
      have := hT _ _ q1 ht q3
      subst this
      rw [e] at q2; cases q2
    have hany : (s.freed.any (·.1 == arg t)) = false := by
      rw [List.any_eq_false]
      intro x hx hx'
      have : x.1 = arg t := by simpa using hx'
      exact hnew x.2 (by rw [← this]; exact hx)
    refine ⟨{ s with freed := (arg t, r) :: s.freed }.goto t .unlock, by simp only [hr, hm, hany]; rfl, ?_⟩
    have cases' : ∀ q, ({ s with freed := (arg t, r) :: s.freed }.goto t .unlock).pc q = if q = t then .unlock else s.pc q := fun q => rfl
    refine ⟨?_, ?_, ?_, ?_, ?_, ?_⟩
    · intro x hx
      refine h.keep x fun q hq hd => hx q hq ?_
      rw [cases', if_neg]
      · exact hd
      · rintro rfl; rw [e] at hd; cases hd
    · intro q hq hd
      rw [cases'] at hd
      by_cases e' : q = t
      · rw [if_pos e'] at hd; cases hd
      · rw [if_neg e'] at hd; exact h.gone q hq hd
    · intro q hq hf hb
      rw [cases'] at hf hb
      by_cases e' : q = t
      · subst e'; exact hk
      · rw [if_neg e'] at hf hb; exact h.ok q hq hf hb
    · intro q hq hb
      rw [cases'] at hb
      by_cases e' : q = t
      · rw [if_pos e'] at hb; cases hb
      · rw [if_neg e'] at hb; exact h.bad q hq hb
    · intro x r'
      show (x, r') ∈ (arg t, r) :: s.freed ↔ _
      rw [List.mem_cons, h.freed x r']
      constructor
      · rintro (q | ⟨q, q1, q2, q3⟩)
        · cases q
          exact ⟨t, ht, by rw [cases', if_pos rfl]; rfl, rfl, hm⟩
        · refine ⟨q, q1, ?_, q3⟩
          rw [cases']
          split
          · rfl
          · exact q2
      · rintro ⟨q, q1, q2, q3, q4⟩
        rw [cases'] at q2
        by_cases e' : q = t
        · subst e'
          left
          rw [← q3] at q4
          rw [hm] at q4
          cases q4
          rw [q3]
        · rw [if_neg e'] at q2
          exact .inr ⟨q, q1, q2, q3, q4⟩
    · show ((arg t :: s.freed.map Prod.fst)).Nodup
      refine List.nodup_cons.2 ⟨?_, h.nodup⟩
      intro hm'
      obtain ⟨x, hx, hx'⟩ := List.mem_map.1 hm'
      exact hnew x.2 (by rw [← hx']; exact hx)
  | unlock =>
    have hk := h.ok t ht (by rw [e]; simp) (by rw [e]; simp)
    exact ⟨_, rfl, move .erase none (by rw [e]; simp) (by simp) (by rw [e]; rfl) (fun _ => hk) fun x => by cases x⟩
  | erase =>
    have hk := h.ok t ht (by rw [e]; simp) (by rw [e]; simp)
    refine ⟨_, rfl, ?_⟩
    have cases' : ∀ q, ({ s with map := upd s.map (arg t) none }.goto t .done).pc q = if q = t then .done else s.pc q := fun q => rfl
    refine ⟨?_, ?_, ?_, ?_, ?_, h.nodup⟩
    · intro x hx
      have hne : x ≠ arg t := hx t ht (by rw [cases', if_pos rfl])
      show upd s.map (arg t) none x = map x
      rw [upd_ne _ _ hne]
      refine h.keep x fun q hq hd => hx q hq ?_
      rw [cases', hd]; simp
    · intro q hq hd
      show upd s.map (arg t) none (arg q) = none
      by_cases e' : arg q = arg t
      · rw [e', upd_same]
      · rw [upd_ne _ _ e']
        rw [cases', if_neg (by rintro rfl; exact e' rfl)] at hd
        exact h.gone q hq hd
    · intro q hq hf hb
      rw [cases'] at hf hb
      by_cases e' : q = t
      · subst e'; exact hk
      · rw [if_neg e'] at hf hb; exact h.ok q hq hf hb
    · intro q hq hb
      rw [cases'] at hb
      by_cases e' : q = t
      · rw [if_pos e'] at hb; cases hb
      · rw [if_neg e'] at hb; exact h.bad q hq hb
    · intro x r
      refine (h.freed x r).trans ⟨?_, ?_⟩
      · rintro ⟨q, q1, q2, q3⟩
        refine ⟨q, q1, ?_, q3⟩
        rw [cases']
        split
        · rfl
        · exact q2
      · rintro ⟨q, q1, q2, q3⟩
        refine ⟨q, q1, ?_, q3⟩
        rw [cases'] at q2
        split at q2
        · next e' => subst e'; rw [e]; rfl
        · exact q2
  | done => exact ⟨s, rfl, h⟩
  | bad => exact ⟨s, rfl, h⟩

theorem begin_inv : Inv arg map T (begin map) := by
  refine ⟨fun _ _ => rfl, ?_, ?_, ?_, ?_, List.nodup_nil⟩
  · intro t _ h; cases h
  · intro t _ h; exact absurd rfl h
  · intro t _ h; cases h
  · intro p r
    constructor
    · intro h; cases h
    · rintro ⟨t, _, h, _⟩; cases h

theorem run_inv (hT : ∀ t t', T t → T t' → arg t = arg t' → t = t') : ∀ (l : List Nat) (s : St), (∀ t ∈ l, T t) → Inv arg map T s →
    ∃ s', run arg l s = some s' ∧ Inv arg map T s' := by
  intro l
  induction l with
  | nil => intro s _ h; exact ⟨s, rfl, h⟩
  | cons t l ih =>
    intro s hl h
    obtain ⟨s1, h1, h2⟩ := h.step hT (hl t List.mem_cons_self)
    obtain ⟨s2, h3, h4⟩ := ih s1 (fun q hq => hl q (List.mem_cons_of_mem _ hq)) h2
    exact ⟨s2, by rw [run, h1]; exact h3, h4⟩

end Verif.Resource
