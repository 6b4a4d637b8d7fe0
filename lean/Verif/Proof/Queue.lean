import Verif.Spec.Queue
/-! Helper lemmas for the thread-safe queue. -/
namespace Verif.Queue

variable {α : Type}

theorem upd_self {β : Type} (f : Nat → β) (i : Nat) (x : β) : upd f i x i = x := by simp [upd]
theorem upd_ne {β : Type} (f : Nat → β) {i j : Nat} (h : j ≠ i) (x : β) : upd f i x j = f j := by
  simp [upd, h]

theorem fifo_append {q q' q'' : List α} {l l' : List (Event α)} (h : Fifo q l q') (h' : Fifo q' l' q'') :
    Fifo q (l ++ l') q'' := by
  induction h with
  | nil q => exact h'
  | pushed q q' l t v _ ih => exact .pushed _ _ _ _ _ (ih h')
  | popped q q' l t v _ ih => exact .popped _ _ _ _ _ (ih h')
  | sawEmpty q' l t _ ih => exact .sawEmpty _ _ _ (ih h')
  | sawElements q q' l t hq _ ih => exact .sawElements _ _ _ _ hq (ih h')

theorem fifo_values {q q' : List α} {l : List (Event α)} (h : Fifo q l q') :
    q ++ pushes l = pops l ++ q' := by
  induction h with
  | nil q => simp [pushes, pops]
  | pushed q q' l t v _ ih => simpa [pushes, pops] using ih
  | popped q q' l t v _ ih => simpa [pushes, pops] using ih
  | sawEmpty q' l t _ ih => simpa [pushes, pops] using ih
  | sawElements q q' l t hq _ ih => simpa [pushes, pops] using ih

/-- What a thread inside knows about the queue. -/
def Knows (q : List α) : Pc α → Prop
  | .front => q ≠ []
  | .pop v => ∃ r, q = v :: r
  | _ => True

structure Inv (s : St α) : Prop where
  locked : ∀ t, Locked (s.pc t) ↔ s.owner = some t
  knows : ∀ t, Knows s.q (s.pc t)
  fifo : Fifo [] s.log s.q
  nodup : s.waiters.Nodup
  asleep : ∀ t, t ∈ s.waiters ↔ s.pc t = .asleep

theorem owner_unique {s : St α} (h : Inv s) {t u : Nat} (ht : Locked (s.pc t)) (hu : Locked (s.pc u)) :
    u = t := by
  have h1 := (h.locked t).1 ht
  have h2 := (h.locked u).1 hu
  rw [h1] at h2
  exact (Option.some.inj h2).symm

theorem knows_free {q : List α} {p : Pc α} (h : ¬ Locked p) : Knows q p := by
  cases p <;> simp_all [Locked, Knows]

/-- A step of the owner that changes neither owner nor sleepers. -/
theorem inv_owner {s : St α} (h : Inv s) {t : Nat} (ht : Locked (s.pc t)) {p : Pc α} (hp : Locked p)
    {q : List α} (hk : Knows q p) {l : List (Event α)} (hl : Fifo [] l q) :
    Inv { s.goto t p with q := q, log := l } := by
  have hno : s.pc t ≠ .asleep := by intro e; rw [e] at ht; exact ht
  have hpo : p ≠ .asleep := by intro e; rw [e] at hp; exact hp
  refine ⟨?_, ?_, hl, h.nodup, ?_⟩
  · intro u
    by_cases hu : u = t
    · subst hu
      simp only [St.goto, upd_self]
      exact ⟨fun _ => (h.locked u).1 ht, fun _ => hp⟩
    · simp only [St.goto, upd_ne _ hu]
      exact h.locked u
  · intro u
    by_cases hu : u = t
    · subst hu
      simp only [St.goto, upd_self]
      exact hk
    · simp only [St.goto, upd_ne _ hu]
      exact knows_free fun hl => hu (owner_unique h ht hl)
  · intro u
    by_cases hu : u = t
    · subst hu
      simp only [St.goto, upd_self]
      rw [h.asleep]
      exact ⟨fun e => absurd e hno, fun e => absurd e hpo⟩
    · simp only [St.goto, upd_ne _ hu]
      exact h.asleep u

/-- A thread outside moves on without touching the mutex or the queue. -/
theorem inv_outside {s : St α} (h : Inv s) {t : Nat} (ht : ¬ Locked (s.pc t)) {p : Pc α} (hp : ¬ Locked p)
    (hpo : p ≠ .asleep) : Inv { s.goto t p with waiters := s.waiters.erase t } := by
  refine ⟨?_, ?_, h.fifo, h.nodup.erase _, ?_⟩
  · intro u
    by_cases hu : u = t
    · subst hu
      simp only [St.goto, upd_self]
      exact ⟨fun e => absurd e hp, fun e => absurd ((h.locked u).2 e) ht⟩
    · simp only [St.goto, upd_ne _ hu]
      exact h.locked u
  · intro u
    by_cases hu : u = t
    · subst hu
      simp only [St.goto, upd_self]
      exact knows_free hp
    · simp only [St.goto, upd_ne _ hu]
      exact h.knows u
  · intro u
    by_cases hu : u = t
    · subst hu
      simp only [St.goto, upd_self]
      exact ⟨fun e => absurd e (h.nodup.not_mem_erase), fun e => absurd e hpo⟩
    · simp only [St.goto, upd_ne _ hu, List.mem_erase_of_ne hu]
      exact h.asleep u

theorem not_waiter {s : St α} (h : Inv s) {t : Nat} (ht : s.pc t ≠ .asleep) : s.waiters.erase t = s.waiters :=
  List.erase_of_not_mem fun e => ht ((h.asleep t).1 e)

theorem inv_lockThen {s : St α} (h : Inv s) {t : Nat} (ht : ¬ Locked (s.pc t)) (ha : s.pc t ≠ .asleep)
    {p : Pc α} (hp : Locked p) (hk : Knows s.q p) : Inv (lockThen s t p) := by
  unfold lockThen
  cases ho : s.owner with
  | some o => exact h
  | none =>
    have hfree : ∀ u, ¬ Locked (s.pc u) := fun u hu => by
      have := (h.locked u).1 hu
      rw [ho] at this
      cases this
    have hpo : p ≠ .asleep := by intro e; rw [e] at hp; exact hp
    refine ⟨?_, ?_, h.fifo, h.nodup, ?_⟩
    · intro u
      by_cases hu : u = t
      · subst hu
        simp only [St.goto, upd_self]
        exact ⟨fun _ => trivial, fun _ => hp⟩
      · simp only [St.goto, upd_ne _ hu]
        exact ⟨fun e => absurd e (hfree u), fun e => absurd (Option.some.inj e).symm hu⟩
    · intro u
      by_cases hu : u = t
      · subst hu
        simp only [St.goto, upd_self]
        exact hk
      · simp only [St.goto, upd_ne _ hu]
        exact h.knows u
    · intro u
      by_cases hu : u = t
      · subst hu
        simp only [St.goto, upd_self]
        rw [h.asleep]
        exact ⟨fun e => absurd e ha, fun e => absurd e hpo⟩
      · simp only [St.goto, upd_ne _ hu]
        exact h.asleep u

/-- The owner releases the mutex. -/
theorem inv_release {s : St α} (h : Inv s) {t : Nat} (ht : Locked (s.pc t)) :
    Inv { s.goto t .idle with owner := none } ∧
    Inv { s.goto t .asleep with owner := none, waiters := t :: s.waiters } := by
  have hno : s.pc t ≠ .asleep := by intro e; rw [e] at ht; exact ht
  have hfree : ∀ u, u ≠ t → ¬ Locked (s.pc u) := fun u hu hl => hu (owner_unique h ht hl)
  have hlock : ∀ p : Pc α, ¬ Locked p → ∀ u, Locked (upd s.pc t p u) ↔ none = some u := by
    intro p hp u
    by_cases hu : u = t
    · subst hu; simp [upd_self, hp]
    · simp [upd_ne _ hu, hfree u hu]
  have hkn : ∀ p : Pc α, ¬ Locked p → ∀ u, Knows s.q (upd s.pc t p u) := by
    intro p hp u
    by_cases hu : u = t
    · subst hu; rw [upd_self]; exact knows_free hp
    · rw [upd_ne _ hu]; exact h.knows u
  have hnw : t ∉ s.waiters := fun e => hno ((h.asleep t).1 e)
  refine ⟨⟨hlock _ id, hkn _ id, h.fifo, h.nodup, ?_⟩,
    ⟨hlock _ id, hkn _ id, h.fifo, List.nodup_cons.2 ⟨hnw, h.nodup⟩, ?_⟩⟩
  · intro u
    by_cases hu : u = t
    · subst hu; simp [St.goto, upd_self, hnw]
    · simp only [St.goto, upd_ne _ hu]; exact h.asleep u
  · intro u
    by_cases hu : u = t
    · subst hu; simp [St.goto, upd_self]
    · simp only [St.goto, upd_ne _ hu, List.mem_cons, hu, false_or]; exact h.asleep u

theorem inv_notify {s : St α} (h : Inv s) (w : Nat) : Inv (notifyOne s w) := by
  unfold notifyOne
  split
  · next hw =>
    have ha := (h.asleep w).1 hw
    exact inv_outside h (by rw [ha]; exact id) id (by simp)
  · exact h

theorem inv_calls {s : St α} (h : Inv s) (l : List (Nat × Call α)) : Inv { s with calls := l } :=
  ⟨h.locked, h.knows, h.fifo, h.nodup, h.asleep⟩

theorem inv_step {s : St α} (h : Inv s) (t : Nat) (c : Choice α) : ∃ s', step s t c = some s' ∧ Inv s' := by
  unfold step
  cases hp : s.pc t with
  | idle =>
    refine ⟨_, rfl, ?_⟩
    have := inv_outside h (t := t) (by rw [hp]; exact id) (p := .lock c.call) id (by simp)
    rw [not_waiter h (by rw [hp]; simp)] at this
    exact inv_calls this _
  | lock call =>
    refine ⟨_, rfl, inv_lockThen h (by rw [hp]; exact id) (by rw [hp]; simp) ?_ ?_⟩
    · cases call <;> exact trivial
    · cases call <;> exact trivial
  | pushing v =>
    exact ⟨_, rfl, inv_owner h (by rw [hp]; exact trivial) (p := .notify) trivial trivial
      (fifo_append h.fifo (.pushed _ _ _ _ _ (.nil _)))⟩
  | notify =>
    simp only
    split
    · exact ⟨s, rfl, h⟩
    · refine ⟨_, rfl, ?_⟩
      have h' := inv_notify h c.wake
      have hl : Locked ((notifyOne s c.wake).pc t) := by
        rw [h'.locked t]
        have := (h.locked t).1 (by rw [hp]; exact trivial)
        unfold notifyOne
        split <;> exact this
      exact inv_owner h' hl (p := .unlock) trivial (q := (notifyOne s c.wake).q) trivial h'.fifo
  | tryTest =>
    simp only
    split
    · next hq =>
      refine ⟨_, rfl, inv_owner h (by rw [hp]; exact trivial) (p := .unlock) trivial (q := s.q) trivial ?_⟩
      have := h.fifo
      rw [hq] at this ⊢
      exact fifo_append this (.sawEmpty _ _ _ (.nil _))
    · next hq =>
      exact ⟨_, rfl, inv_owner h (by rw [hp]; exact trivial) (p := .front) trivial (q := s.q) hq h.fifo⟩
  | waitTest =>
    simp only
    split
    · exact ⟨_, rfl, (inv_release h (by rw [hp]; exact trivial)).2⟩
    · next hq =>
      exact ⟨_, rfl, inv_owner h (by rw [hp]; exact trivial) (p := .front) trivial (q := s.q) hq h.fifo⟩
  | asleep => exact ⟨_, rfl, inv_outside h (by rw [hp]; exact id) id (by simp)⟩
  | relock => exact ⟨_, rfl, inv_lockThen h (by rw [hp]; exact id) (by rw [hp]; simp) trivial trivial⟩
  | front =>
    have hk : Knows s.q (s.pc t) := h.knows t
    rw [hp] at hk
    cases hq : s.q with
    | nil => exact absurd hq hk
    | cons v r =>
      refine ⟨_, rfl, ?_⟩
      have := inv_owner h (t := t) (by rw [hp]; exact trivial) (p := .pop v) trivial (q := s.q) ⟨r, hq⟩ h.fifo
      exact this
  | pop v =>
    have hk : Knows s.q (s.pc t) := h.knows t
    rw [hp] at hk
    obtain ⟨r, hr⟩ := hk
    simp only [hr]
    refine ⟨_, rfl, inv_owner h (by rw [hp]; exact trivial) (p := .unlock) trivial trivial ?_⟩
    have := h.fifo
    rw [hr] at this
    exact fifo_append this (.popped _ _ _ _ _ (.nil _))
  | test =>
    refine ⟨_, rfl, inv_owner h (by rw [hp]; exact trivial) (p := .unlock) trivial (q := s.q) trivial ?_⟩
    split
    · next hq =>
      have := h.fifo
      rw [hq] at this ⊢
      exact fifo_append this (.sawEmpty _ _ _ (.nil _))
    · next hq => exact fifo_append h.fifo (.sawElements _ _ _ _ hq (.nil _))
  | unlock => exact ⟨_, rfl, (inv_release h (by rw [hp]; exact trivial)).1⟩

theorem inv_init : Inv (init : St α) :=
  ⟨fun t => ⟨fun e => e.elim, fun e => (by cases e)⟩, fun _ => trivial, .nil _, List.nodup_nil,
    fun t => ⟨fun e => (by cases e), fun e => (by cases e)⟩⟩

theorem inv_run {s : St α} (h : Inv s) (l : List (Nat × Choice α)) : ∃ s', run s l = some s' ∧ Inv s' := by
  induction l generalizing s with
  | nil => exact ⟨s, rfl, h⟩
  | cons a l ih =>
    obtain ⟨s1, h1, h2⟩ := inv_step h a.1 a.2
    obtain ⟨s2, h3, h4⟩ := ih h2
    exact ⟨s2, by simp [run, h1, h3], h4⟩

/-- While threads sleep, there are at least as many active threads as elements. -/
def Live (s : St α) : Prop :=
  s.waiters ≠ [] → ∃ L : List Nat, L.Nodup ∧ (∀ u ∈ L, Active (s.pc u)) ∧ s.q.length ≤ L.length

/-- An active thread goes to an inactive point and the queue loses an element. -/
theorem live_leave {s : St α} {t : Nat} {p : Pc α} {q : List α} (h : Live s)
    (hq : q = [] ∨ q.length + 1 ≤ s.q.length) {s' : St α} (hpc : s'.pc = upd s.pc t p) (hq' : s'.q = q)
    (hw : s'.waiters ≠ [] → q ≠ [] → s.waiters ≠ []) : Live s' := by
  intro hne
  rcases hq with rfl | hq
  · exact ⟨[], List.nodup_nil, fun _ e => (by cases e), by rw [hq']; simp⟩
  · by_cases hnil : q = []
    · exact ⟨[], List.nodup_nil, fun _ e => (by cases e), by rw [hq', hnil]; simp⟩
    · obtain ⟨L, h1, h2, h3⟩ := h (hw hne hnil)
      refine ⟨L.erase t, h1.erase _, ?_, ?_⟩
      · intro u hu
        have hut : u ≠ t := by
          rintro rfl
          exact h1.not_mem_erase hu
        rw [hpc, upd_ne _ hut]
        exact h2 u (List.mem_of_mem_erase hu)
      · rw [hq']
        have := List.length_erase_le (a := t) (l := L)
        rw [List.length_erase]
        split <;> omega

/-- A thread becomes or stays active or stays inactive; the queue is unchanged. -/
theorem live_keep {s : St α} {t : Nat} {p : Pc α} (h : Live s) (hp : Active (s.pc t) → Active p)
    {s' : St α} (hpc : s'.pc = upd s.pc t p) (hq' : s'.q = s.q)
    (hw : s'.waiters ≠ [] → s.waiters ≠ []) : Live s' := by
  intro hne
  obtain ⟨L, h1, h2, h3⟩ := h (hw hne)
  refine ⟨L, h1, ?_, by rw [hq']; exact h3⟩
  intro u hu
  rw [hpc]
  by_cases hut : u = t
  · subst hut; rw [upd_self]; exact hp (h2 u hu)
  · rw [upd_ne _ hut]; exact h2 u hu

theorem live_step {s s' : St α} (hi : Inv s) (h : Live s) {t : Nat} {c : Choice α}
    (hs : step s t c = some s') : Live s' := by
  unfold step at hs
  cases hp : s.pc t with
  | idle =>
    simp only [hp, Option.some.injEq] at hs
    subst hs
    exact live_keep h (by rw [hp]; exact False.elim) rfl rfl id
  | lock call =>
    simp only [hp, Option.some.injEq] at hs
    subst hs
    unfold lockThen
    split
    · exact live_keep h (by rw [hp]; exact False.elim) rfl rfl id
    · exact h
  | pushing v =>
    simp only [hp, Option.some.injEq] at hs
    subst hs
    intro hne
    obtain ⟨L, h1, h2, h3⟩ := h hne
    refine ⟨t :: L, List.nodup_cons.2 ⟨?_, h1⟩, ?_, ?_⟩
    · intro hin
      have := h2 t hin
      rw [hp] at this
      exact this
    · intro u hu
      by_cases hut : u = t
      · subst hut; simp only [St.goto, upd_self]; trivial
      · simp only [St.goto, upd_ne _ hut]
        exact h2 u (List.mem_of_ne_of_mem hut hu)
    · simp; omega
  | notify =>
    simp only [hp] at hs
    split at hs
    · simp only [Option.some.injEq] at hs
      exact hs ▸ h
    · next hn =>
      simp only [Option.some.injEq] at hs
      subst hs
      intro hne
      have hwne : s.waiters ≠ [] := by
        intro e
        apply hne
        unfold notifyOne
        rw [e]
        simp [St.goto, e]
      have hcw : c.wake ∈ s.waiters := Decidable.not_not.1 fun e => hn ⟨hwne, e⟩
      obtain ⟨L, h1, h2, h3⟩ := h hwne
      have has := (hi.asleep _).1 hcw
      have hct : c.wake ≠ t := by
        intro e
        rw [e, hp] at has
        cases has
      have hcl : c.wake ∉ L := fun e => by
        have := h2 _ e
        rw [has] at this
        exact this
      simp only [notifyOne, if_pos hcw] at hne ⊢
      refine ⟨c.wake :: L.erase t, List.nodup_cons.2 ⟨fun e => hcl (List.mem_of_mem_erase e), h1.erase _⟩,
        ?_, ?_⟩
      · intro u hu
        simp only [St.goto]
        rcases List.mem_cons.1 hu with rfl | hu
        · rw [upd_ne _ hct, upd_self]; trivial
        · have hut : u ≠ t := by
            rintro rfl
            exact h1.not_mem_erase hu
          have huL := List.mem_of_mem_erase hu
          have huc : u ≠ c.wake := by rintro rfl; exact hcl huL
          rw [upd_ne _ hut, upd_ne _ huc]
          exact h2 u huL
      · simp only [St.goto, List.length_cons, List.length_erase]
        split <;> omega
  | tryTest =>
    simp only [hp] at hs
    split at hs
    · simp only [Option.some.injEq] at hs
      subst hs
      exact live_keep h (by rw [hp]; exact False.elim) rfl rfl id
    · simp only [Option.some.injEq] at hs
      subst hs
      exact live_keep h (by rw [hp]; exact False.elim) rfl rfl id
  | waitTest =>
    simp only [hp] at hs
    split at hs
    · next hq =>
      simp only [Option.some.injEq] at hs
      subst hs
      exact live_leave (t := t) (p := .asleep) (q := s.q) h (.inl hq) rfl rfl fun _ e => absurd hq e
    · simp only [Option.some.injEq] at hs
      subst hs
      exact live_keep (t := t) (p := .front) h (fun _ => trivial) rfl rfl id
  | asleep =>
    simp only [hp, Option.some.injEq] at hs
    subst hs
    refine live_keep h (by rw [hp]; exact False.elim) rfl rfl ?_
    intro e e'
    apply e
    simp [e']
  | relock =>
    simp only [hp, Option.some.injEq] at hs
    subst hs
    unfold lockThen
    split
    · exact live_keep (t := t) (p := .waitTest) h (fun _ => trivial) rfl rfl id
    · exact h
  | front =>
    simp only [hp] at hs
    split at hs
    · cases hs
    · simp only [Option.some.injEq] at hs
      subst hs
      next v _ _ => exact live_keep (t := t) (p := .pop v) h (fun _ => trivial) rfl rfl id
  | pop v =>
    simp only [hp] at hs
    split at hs
    · cases hs
    · next hq =>
      simp only [Option.some.injEq] at hs
      subst hs
      exact live_leave (t := t) (p := .unlock) h (.inr (by rw [hq]; simp)) rfl rfl fun e _ => e
  | test =>
    simp only [hp, Option.some.injEq] at hs
    subst hs
    exact live_keep h (by rw [hp]; exact False.elim) rfl rfl id
  | unlock =>
    simp only [hp, Option.some.injEq] at hs
    subst hs
    exact live_keep h (by rw [hp]; exact False.elim) rfl rfl id

theorem live_run {s s' : St α} (hi : Inv s) (h : Live s) (l : List (Nat × Choice α))
    (hr : run s l = some s') : Live s' := by
  induction l generalizing s with
  | nil => simp only [run, Option.some.injEq] at hr; exact hr ▸ h
  | cons a l ih =>
    obtain ⟨s1, h1, h2⟩ := inv_step hi a.1 a.2
    simp only [run, h1, Option.bind_some] at hr
    exact ih h2 (live_step hi h h1) hr

theorem answered_snoc {cs : List (Call α)} {es : List (Event α)} (h : AllAnswered cs es) {c : Call α}
    {e : Event α} (hc : Answers c e) : AllAnswered (cs ++ [c]) (es ++ [e]) := by
  induction h with
  | nil => exact .cons _ _ _ _ hc .nil
  | cons c' e' cs es h1 _ ih => exact .cons _ _ _ _ h1 ih

/-- The call a thread is working on has not had its effect yet. -/
def Current : Pc α → Call α → Prop
  | .lock c, d => d = c
  | .pushing v, d => d = .push v
  | .tryTest, d => d = .tryPop
  | .waitTest, d => d = .waitPop
  | .asleep, d => d = .waitPop
  | .relock, d => d = .waitPop
  | .front, d => d = .tryPop ∨ d = .waitPop
  | .pop _, d => d = .tryPop ∨ d = .waitPop
  | .test, d => d = .empty
  | _, _ => False

/-- No call is pending at this point. -/
def NoneCurrent : Pc α → Prop
  | .idle => True
  | .notify => True
  | .unlock => True
  | _ => False

def Served (p : Pc α) (cs : List (Call α)) (es : List (Event α)) : Prop :=
  (NoneCurrent p ∧ AllAnswered cs es) ∨ ∃ cs' c, cs = cs' ++ [c] ∧ Current p c ∧ AllAnswered cs' es

theorem served_move {p p' : Pc α} {cs : List (Call α)} {es : List (Event α)} (h : Served p cs es)
    (h1 : NoneCurrent p → NoneCurrent p') (h2 : ∀ c, Current p c → Current p' c) : Served p' cs es := by
  rcases h with ⟨h3, h4⟩ | ⟨cs', c, h3, h4, h5⟩
  · exact .inl ⟨h1 h3, h4⟩
  · exact .inr ⟨cs', c, h3, h2 c h4, h5⟩

theorem served_event {p p' : Pc α} {cs : List (Call α)} {es : List (Event α)} {e : Event α}
    (h : Served p cs es) (h1 : ¬ NoneCurrent p) (h2 : ∀ c, Current p c → Answers c e)
    (h3 : NoneCurrent p') : Served p' cs (es ++ [e]) := by
  rcases h with ⟨h4, _⟩ | ⟨cs', c, rfl, h4, h5⟩
  · exact absurd h4 h1
  · exact .inl ⟨h3, answered_snoc h5 (h2 c h4)⟩

/-- Every thread's calls are served in order. -/
def AllServed (s : St α) : Prop := ∀ t, Served (s.pc t) (callsOf s t) (eventsOf s t)

theorem all_move {s : St α} (h : AllServed s) {t : Nat} {p' : Pc α} {s' : St α}
    (hpc : s'.pc = upd s.pc t p') (hl : s'.log = s.log) (hc : s'.calls = s.calls)
    (h1 : NoneCurrent (s.pc t) → NoneCurrent p') (h2 : ∀ c, Current (s.pc t) c → Current p' c) :
    AllServed s' := by
  intro u
  have hu := h u
  have e1 : callsOf s' u = callsOf s u := by simp [callsOf, hc]
  have e2 : eventsOf s' u = eventsOf s u := by simp [eventsOf, hl]
  rw [e1, e2, hpc]
  by_cases hut : u = t
  · subst hut; rw [upd_self]; exact served_move hu h1 h2
  · rw [upd_ne _ hut]; exact hu

theorem all_event {s : St α} (h : AllServed s) {t : Nat} {p' : Pc α} {s' : St α} {e : Event α}
    (hpc : s'.pc = upd s.pc t p') (hl : s'.log = s.log ++ [e]) (hc : s'.calls = s.calls)
    (he : e.thread = t) (h1 : ¬ NoneCurrent (s.pc t)) (h2 : ∀ c, Current (s.pc t) c → Answers c e)
    (h3 : NoneCurrent p') : AllServed s' := by
  intro u
  have hu := h u
  have e1 : callsOf s' u = callsOf s u := by simp [callsOf, hc]
  rw [e1, hpc]
  by_cases hut : u = t
  · subst hut
    have e2 : eventsOf s' u = eventsOf s u ++ [e] := by simp [eventsOf, hl, List.filter_append, he]
    rw [upd_self, e2]
    exact served_event hu h1 h2 h3
  · have hne : ¬ t = u := fun e => hut e.symm
    have e2 : eventsOf s' u = eventsOf s u := by simp [eventsOf, hl, List.filter_append, he, hne]
    rw [upd_ne _ hut, e2]
    exact hu

theorem served_step {s s' : St α} (hi : Inv s) (h : AllServed s) {t : Nat} {c : Choice α}
    (hs : step s t c = some s') : AllServed s' := by
  unfold step at hs
  cases hp : s.pc t with
  | idle =>
    simp only [hp, Option.some.injEq] at hs
    subst hs
    intro u
    have hu := h u
    by_cases hut : u = t
    · subst hut
      rw [hp] at hu
      rcases hu with ⟨_, hu⟩ | ⟨_, _, _, hc, _⟩
      · refine .inr ⟨callsOf s u, c.call, ?_, ?_, hu⟩
        · simp [callsOf, List.filter_append]
        · simp only [St.goto, upd_self]; rfl
      · exact hc.elim
    · have hne : ¬ t = u := fun e => hut e.symm
      have e1 : callsOf { s.goto t (.lock c.call) with calls := s.calls ++ [(t, c.call)] } u =
          callsOf s u := by simp [callsOf, List.filter_append, hne]
      rw [e1]
      simp only [St.goto, upd_ne _ hut]
      exact hu
  | lock call =>
    simp only [hp, Option.some.injEq] at hs
    subst hs
    unfold lockThen
    split
    · refine all_move h (t := t) (p' := afterLock call) rfl rfl rfl (by rw [hp]; exact False.elim) ?_
      intro d hd
      rw [hp] at hd
      cases call <;> exact hd
    · exact h
  | pushing v =>
    simp only [hp, Option.some.injEq] at hs
    subst hs
    refine all_event h (t := t) (p' := .notify) rfl rfl rfl rfl (by rw [hp]; exact id) ?_ trivial
    intro d hd
    rw [hp] at hd
    cases hd
    rfl
  | notify =>
    simp only [hp] at hs
    split at hs
    · simp only [Option.some.injEq] at hs
      exact hs ▸ h
    · simp only [Option.some.injEq] at hs
      subst hs
      have h1 : AllServed (notifyOne s c.wake) ∧ (notifyOne s c.wake).pc t = .notify := by
        unfold notifyOne
        split
        · next hw =>
          have ha := (hi.asleep _).1 hw
          have hct : t ≠ c.wake := by
            intro e
            rw [← e, hp] at ha
            cases ha
          refine ⟨all_move h (t := c.wake) (p' := .relock) rfl rfl rfl (by rw [ha]; exact False.elim) ?_, ?_⟩
          · intro d hd
            rw [ha] at hd
            exact hd
          · simp only [St.goto, upd_ne _ hct]; exact hp
        · exact ⟨h, hp⟩
      refine all_move h1.1 (t := t) (p' := .unlock) rfl rfl rfl (fun _ => trivial) ?_
      intro d hd
      rw [h1.2] at hd
      exact hd.elim
  | tryTest =>
    simp only [hp] at hs
    split at hs
    · simp only [Option.some.injEq] at hs
      subst hs
      refine all_event h (t := t) (p' := .unlock) rfl rfl rfl rfl (by rw [hp]; exact id) ?_ trivial
      intro d hd
      rw [hp] at hd
      cases hd
      trivial
    · simp only [Option.some.injEq] at hs
      subst hs
      refine all_move h (t := t) (p' := .front) rfl rfl rfl (by rw [hp]; exact False.elim) ?_
      intro d hd
      rw [hp] at hd
      exact .inl hd
  | waitTest =>
    simp only [hp] at hs
    split at hs
    · simp only [Option.some.injEq] at hs
      subst hs
      refine all_move h (t := t) (p' := .asleep) rfl rfl rfl (by rw [hp]; exact False.elim) ?_
      intro d hd
      rw [hp] at hd
      exact hd
    · simp only [Option.some.injEq] at hs
      subst hs
      refine all_move h (t := t) (p' := .front) rfl rfl rfl (by rw [hp]; exact False.elim) ?_
      intro d hd
      rw [hp] at hd
      exact .inr hd
  | asleep =>
    simp only [hp, Option.some.injEq] at hs
    subst hs
    refine all_move h (t := t) (p' := .relock) rfl rfl rfl (by rw [hp]; exact False.elim) ?_
    intro d hd
    rw [hp] at hd
    exact hd
  | relock =>
    simp only [hp, Option.some.injEq] at hs
    subst hs
    unfold lockThen
    split
    · refine all_move h (t := t) (p' := .waitTest) rfl rfl rfl (by rw [hp]; exact False.elim) ?_
      intro d hd
      rw [hp] at hd
      exact hd
    · exact h
  | front =>
    simp only [hp] at hs
    split at hs
    · cases hs
    · next v _ _ =>
      simp only [Option.some.injEq] at hs
      subst hs
      refine all_move h (t := t) (p' := .pop v) rfl rfl rfl (by rw [hp]; exact False.elim) ?_
      intro d hd
      rw [hp] at hd
      exact hd
  | pop v =>
    simp only [hp] at hs
    split at hs
    · cases hs
    · simp only [Option.some.injEq] at hs
      subst hs
      refine all_event h (t := t) (p' := .unlock) rfl rfl rfl rfl (by rw [hp]; exact id) ?_ trivial
      intro d hd
      rw [hp] at hd
      rcases hd with rfl | rfl <;> trivial
  | test =>
    simp only [hp, Option.some.injEq] at hs
    subst hs
    refine all_event h (t := t) (p' := .unlock) rfl rfl rfl (by split <;> rfl) (by rw [hp]; exact id) ?_ trivial
    intro d hd
    rw [hp] at hd
    cases hd
    split <;> trivial
  | unlock =>
    simp only [hp, Option.some.injEq] at hs
    subst hs
    refine all_move h (t := t) (p' := .idle) rfl rfl rfl (fun _ => trivial) ?_
    intro d hd
    rw [hp] at hd
    exact hd.elim

theorem served_run {s s' : St α} (hi : Inv s) (h : AllServed s) (l : List (Nat × Choice α))
    (hr : run s l = some s') : AllServed s' := by
  induction l generalizing s with
  | nil => simp only [run, Option.some.injEq] at hr; exact hr ▸ h
  | cons a l ih =>
    obtain ⟨s1, h1, h2⟩ := inv_step hi a.1 a.2
    simp only [run, h1, Option.bind_some] at hr
    exact ih h2 (served_step hi h h1) hr

end Verif.Queue
