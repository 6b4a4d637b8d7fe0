import Verif.Spec.Mutex
/-! Helper lemmas for the mutex. -/
namespace Verif.Mutex

/-- What the registers of a thread are known to contain. -/
def Good : Pc → Prop
  | .lockCas0 old => old = 0
  | .lockCas old _ => old &&& kMask = 0
  | .markCas _ _ _ => False
  | _ => True

structure Inv (s : St) : Prop where
  word : s.word = 0 ∨ s.word = 1
  one : ∀ t u, Inside (s.pc t) → Inside (s.pc u) → t = u
  locked : s.word = 1 ↔ ∃ t, Inside (s.pc t)
  good : ∀ t, Good (s.pc t)

theorem cas_cases (c : Choice) (w old new : Word) :
    (w = old ∧ cas c w old new = (true, new)) ∨ cas c w old new = (false, w) := by
  unfold cas
  by_cases h : w = old ∧ c.spurious = false
  · left; exact ⟨h.1, by simp [h]⟩
  · right; simp only [if_neg h]

theorem or_kMask {x : Word} (h : x &&& kMask ≠ 0) : x ||| kMask = x := by
  apply BitVec.eq_of_getLsbD_eq
  intro i hi
  by_cases h0 : i = 0
  · subst h0
    simp only [BitVec.getLsbD_or]
    cases hx : x.getLsbD 0
    · exfalso
      apply h
      apply BitVec.eq_of_getLsbD_eq
      intro j hj
      by_cases hj0 : j = 0
      · subst hj0; simp only [BitVec.getLsbD_and, hx]; rfl
      · simp [kMask, BitVec.getLsbD_one, hj0]
    · rfl
  · simp [kMask, BitVec.getLsbD_one, h0]

/-- How one step can change word and thread: nothing of note, taking the free mutex, or giving it back. -/
theorem step_cases {c : Choice} {w w' : Word} {p p' : Pc} (hw : w = 0 ∨ w = 1)
    (hin : Inside p → w = 1) (hg : Good p) (h : step c w p = some (w', p')) :
    Good p' ∧ ((w' = w ∧ (Inside p' ↔ Inside p)) ∨ (w = 0 ∧ w' = 1 ∧ ¬ Inside p ∧ Inside p') ∨
      (w = 1 ∧ w' = 0 ∧ Inside p ∧ ¬ Inside p')) := by
  cases p with
  | out =>
    simp only [step] at h
    split at h
    · simp only [Option.some.injEq, Prod.mk.injEq] at h
      obtain ⟨rfl, rfl⟩ := h
      split <;> simp_all [Inside, Good]
    · simp only [Option.some.injEq, Prod.mk.injEq] at h
      obtain ⟨rfl, rfl⟩ := h
      simp [Inside, Good]
    · cases h
  | lockCas0 old =>
    simp only [step] at h
    have hg : old = 0 := hg
    rcases cas_cases c w old (old ||| kMask) with ⟨h1, h2⟩ | h2
    · rw [h2] at h
      simp at h
      obtain ⟨rfl, rfl⟩ := h
      subst h1 hg
      exact ⟨trivial, .inr (.inl ⟨rfl, by decide, by simp [Inside], by simp [Inside]⟩)⟩
    · rw [h2] at h
      simp at h
      obtain ⟨rfl, rfl⟩ := h
      exact ⟨trivial, .inl ⟨rfl, by simp [Inside]⟩⟩
  | retry old spin =>
    simp only [step] at h
    split at h
    · next hb =>
      split at h
      · simp only [Option.some.injEq, Prod.mk.injEq] at h
        obtain ⟨rfl, rfl⟩ := h
        rw [or_kMask hb, if_neg (by simp)]
        exact ⟨trivial, .inl ⟨rfl, by simp [Inside]⟩⟩
      · simp only [Option.some.injEq, Prod.mk.injEq] at h
        obtain ⟨rfl, rfl⟩ := h
        exact ⟨trivial, .inl ⟨rfl, by simp [Inside]⟩⟩
    · next hb =>
      simp only [Option.some.injEq, Prod.mk.injEq] at h
      obtain ⟨rfl, rfl⟩ := h
      exact ⟨(Decidable.not_not.1 hb : old &&& kMask = 0), .inl ⟨rfl, by simp [Inside]⟩⟩
  | markCas _ _ _ => exact hg.elim
  | park new spin =>
    simp only [step, Option.some.injEq, Prod.mk.injEq] at h
    obtain ⟨rfl, rfl⟩ := h
    split <;> exact ⟨trivial, .inl ⟨rfl, by simp [Inside]⟩⟩
  | asleep spin =>
    simp only [step, Option.some.injEq, Prod.mk.injEq] at h
    obtain ⟨rfl, rfl⟩ := h
    exact ⟨trivial, .inl ⟨rfl, by simp [Inside]⟩⟩
  | reload spin =>
    simp only [step, Option.some.injEq, Prod.mk.injEq] at h
    obtain ⟨rfl, rfl⟩ := h
    exact ⟨trivial, .inl ⟨rfl, by simp [Inside]⟩⟩
  | lockCas old spin =>
    simp only [step] at h
    have hg : old &&& kMask = 0 := hg
    rcases cas_cases c w old (old ||| kMask) with ⟨h1, h2⟩ | h2
    · rw [h2] at h
      simp at h
      obtain ⟨rfl, rfl⟩ := h
      subst h1
      rcases hw with rfl | rfl
      · exact ⟨trivial, .inr (.inl ⟨rfl, by decide, by simp [Inside], by simp [Inside]⟩)⟩
      · exact absurd hg (by decide)
    · rw [h2] at h
      simp at h
      obtain ⟨rfl, rfl⟩ := h
      exact ⟨trivial, .inl ⟨rfl, by simp [Inside]⟩⟩
  | tryLoop old =>
    simp only [step] at h
    split at h
    · simp only [Option.some.injEq, Prod.mk.injEq] at h
      obtain ⟨rfl, rfl⟩ := h
      exact ⟨trivial, .inl ⟨rfl, by simp [Inside]⟩⟩
    · next hz =>
      have hz := Decidable.not_not.1 hz
      rcases cas_cases c w old (old ||| kMask) with ⟨h1, h2⟩ | h2
      · rw [h2] at h
        simp at h
        obtain ⟨rfl, rfl⟩ := h
        subst h1 hz
        exact ⟨trivial, .inr (.inl ⟨rfl, by decide, by simp [Inside], by simp [Inside]⟩)⟩
      · rw [h2] at h
        simp at h
        obtain ⟨rfl, rfl⟩ := h
        exact ⟨trivial, .inl ⟨rfl, by simp [Inside]⟩⟩
  | holds =>
    simp only [step] at h
    split at h
    · simp only [Option.some.injEq, Prod.mk.injEq] at h
      obtain ⟨rfl, rfl⟩ := h
      exact ⟨trivial, .inl ⟨rfl, by simp [Inside]⟩⟩
    · cases h
  | unlockCas old =>
    simp only [step] at h
    have hw1 : w = 1 := hin trivial
    rcases cas_cases c w old (old &&& ~~~kMask) with ⟨h1, h2⟩ | h2
    · rw [h2] at h
      simp only [if_true, Option.some.injEq, Prod.mk.injEq] at h
      obtain ⟨rfl, rfl⟩ := h
      subst h1 hw1
      rw [if_pos (by decide)]
      exact ⟨trivial, .inr (.inr ⟨rfl, by decide, by simp [Inside], by simp [Inside]⟩)⟩
    · rw [h2] at h
      simp at h
      obtain ⟨rfl, rfl⟩ := h
      exact ⟨trivial, .inl ⟨rfl, by simp [Inside]⟩⟩
  | unpark =>
    simp only [step, Option.some.injEq, Prod.mk.injEq] at h
    obtain ⟨rfl, rfl⟩ := h
    exact ⟨trivial, .inl ⟨rfl, by simp [Inside]⟩⟩

theorem inv_step {s s' : St} {t : Nat} {c : Choice} (h : Inv s) (hs : s.step t c = some s') : Inv s' := by
  unfold St.step at hs
  cases hst : step c s.word (s.pc t) with
  | none => rw [hst] at hs; cases hs
  | some r =>
    obtain ⟨w', p'⟩ := r
    rw [hst] at hs
    simp at hs
    subst hs
    obtain ⟨hg, hc⟩ := step_cases h.word (fun hi => h.locked.2 ⟨t, hi⟩) (h.good t) hst
    have hgood : ∀ u, Good (if u = t then p' else s.pc u) := by
      intro u
      by_cases hu : u = t
      · rw [if_pos hu]; exact hg
      · rw [if_neg hu]; exact h.good u
    rcases hc with ⟨rfl, hi⟩ | ⟨h0, rfl, hn, hi⟩ | ⟨h1, rfl, hi, hn⟩
    · have hsame : ∀ u, Inside (if u = t then p' else s.pc u) ↔ Inside (s.pc u) := by
        intro u
        by_cases hu : u = t
        · subst hu; rw [if_pos rfl]; exact hi
        · rw [if_neg hu]
      refine ⟨h.word, ?_, ?_, hgood⟩
      · intro a b ha hb
        exact h.one a b ((hsame a).1 ha) ((hsame b).1 hb)
      · rw [show (St.mk s.word fun u => if u = t then p' else s.pc u).word = s.word from rfl, h.locked]
        exact exists_congr fun u => (hsame u).symm
    · have hnone : ∀ u, ¬ Inside (s.pc u) := by
        intro u hu
        have := h.locked.2 ⟨u, hu⟩
        rw [h0] at this
        exact absurd this (by decide)
      have hall : ∀ a, Inside (if a = t then p' else s.pc a) → a = t := by
        intro a ha
        by_cases hat : a = t
        · exact hat
        · rw [if_neg hat] at ha; exact absurd ha (hnone a)
      refine ⟨.inr rfl, fun a b ha hb => (hall a ha).trans (hall b hb).symm, ?_, hgood⟩
      exact ⟨fun _ => ⟨t, by simpa using hi⟩, fun _ => rfl⟩
    · refine ⟨.inl rfl, ?_, ?_, hgood⟩
      · intro a b ha hb
        by_cases hat : a = t
        · rw [show (St.mk 0 fun u => if u = t then p' else s.pc u).pc a = p' from if_pos hat] at ha
          exact absurd ha hn
        · rw [show (St.mk 0 fun u => if u = t then p' else s.pc u).pc a = s.pc a from if_neg hat] at ha
          exact absurd (h.one a t ha hi) hat
      · constructor
        · intro e; exact absurd (show (0 : Word) = 1 from e) (by decide)
        · rintro ⟨a, ha⟩
          by_cases hat : a = t
          · rw [show (St.mk 0 fun u => if u = t then p' else s.pc u).pc a = p' from if_pos hat] at ha
            exact absurd ha hn
          · rw [show (St.mk 0 fun u => if u = t then p' else s.pc u).pc a = s.pc a from if_neg hat] at ha
            exact absurd (h.one a t ha hi) hat

theorem inv_init : Inv init := by
  refine ⟨.inl rfl, ?_, ?_, fun _ => trivial⟩
  · intro t u ht; exact ht.elim
  · exact ⟨fun e => absurd e (by decide), fun ⟨_, ht⟩ => ht.elim⟩

theorem inv_run {s s' : St} (l : List (Nat × Choice)) (h : Inv s) (hr : run s l = some s') : Inv s' := by
  induction l generalizing s with
  | nil => simp only [run, Option.some.injEq] at hr; exact hr ▸ h
  | cons a l ih =>
    obtain ⟨t, c⟩ := a
    simp only [run] at hr
    cases hs : s.step t c with
    | none => rw [hs] at hr; cases hr
    | some s1 =>
      rw [hs] at hr
      exact ih (inv_step h hs) hr

end Verif.Mutex
