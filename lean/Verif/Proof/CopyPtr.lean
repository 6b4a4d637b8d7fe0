import Verif.Spec.CopyPtr

/-!
Helpers for `copyable_ptr`.
-/
namespace Verif.CopyPtr

variable {α : Type}

/-- Every pointer has an object of its own, objects have old addresses, and every object has a pointer or was released; released objects have no pointer. -/
structure Inv (s : St α) : Prop where
  live : ∀ v a, s.ptr v = some a → s.heap a ≠ none
  inj : ∀ v w a, s.ptr v = some a → s.ptr w = some a → v = w
  old : ∀ a, s.heap a ≠ none → a < s.next
  owned : ∀ a, s.heap a ≠ none → (∃ v, s.ptr v = some a) ∨ a ∈ s.released
  free : ∀ a ∈ s.released, s.heap a ≠ none ∧ ∀ v, s.ptr v ≠ some a

theorem upd_same {β : Type} (f : Nat → β) (k : Nat) (x : β) : upd f k x k = x := if_pos rfl
theorem upd_other {β : Type} (f : Nat → β) {k j : Nat} (h : j ≠ k) (x : β) : upd f k x j = f j := if_neg h

theorem init_inv : Inv (init α) :=
  ⟨fun v a h => (by cases h), fun v w a h => (by cases h), fun a h => absurd rfl h, fun a h => absurd rfl h, fun a h => (by cases h)⟩

/-- Giving a variable an object that no variable has. -/
theorem reset_new {s : St α} (h : Inv s) (v : Nat) (x : α) :
    ∃ s', (s.alloc x).1.reset v (some (s.alloc x).2) = some s' ∧ Inv s' ∧ s'.released = s.released ∧
      ∀ w, s'.deref w = if w = v then some x else s.deref w := by
  have hnew : s.heap s.next = none := by
    by_cases e : s.heap s.next = none
    · exact e
    · exact absurd (h.old _ e) (Nat.lt_irrefl _)
  have hptr : ∀ w a, s.ptr w = some a → a ≠ s.next := fun w a e ea => h.live w a e (ea ▸ hnew)
  cases hv : s.ptr v with
  | none =>
    refine ⟨⟨upd s.ptr v (some s.next), upd s.heap s.next (some x), s.next + 1, s.released⟩, ?_, ⟨?_, ?_, ?_, ?_, ?_⟩, rfl, ?_⟩
    · simp [St.reset, St.alloc, hv, St.delete]
    · intro w a e
      by_cases hw : w = v
      · subst hw
        simp only [upd_same, Option.some.injEq] at e
        subst e
        simp [upd_same]
      · simp only [upd_other _ hw] at e
        simp only [upd_other _ (hptr w a e)]
        exact h.live w a e
    · intro w u a e1 e2
      by_cases hw : w = v <;> by_cases hu : u = v
      · rw [hw, hu]
      · subst hw
        simp only [upd_same, Option.some.injEq] at e1
        simp only [upd_other _ hu] at e2
        exact absurd e1.symm (hptr u a e2)
      · subst hu
        simp only [upd_same, Option.some.injEq] at e2
        simp only [upd_other _ hw] at e1
        exact absurd e2.symm (hptr w a e1)
      · simp only [upd_other _ hw] at e1
        simp only [upd_other _ hu] at e2
        exact h.inj w u a e1 e2
    · intro a e
      by_cases ha : a = s.next
      · simp [ha]
      · simp only [upd_other _ ha] at e
        exact Nat.lt_succ_of_lt (h.old a e)
    · intro a e
      by_cases ha : a = s.next
      · exact Or.inl ⟨v, by simp [upd_same, ha]⟩
      · simp only [upd_other _ ha] at e
        rcases h.owned a e with ⟨w, hw⟩ | hr
        · refine Or.inl ⟨w, ?_⟩
          have : w ≠ v := fun e => by rw [e, hv] at hw; cases hw
          simp only [upd_other _ this]
          exact hw
        · exact Or.inr hr
    · intro a ha
      obtain ⟨h1, h2⟩ := h.free a ha
      have hne : a ≠ s.next := fun e => h1 (e ▸ hnew)
      refine ⟨by simpa only [upd_other _ hne] using h1, fun w => ?_⟩
      by_cases hw : w = v
      · subst hw; simp only [upd_same]; exact fun e => hne (Option.some.inj e).symm
      · simp only [upd_other _ hw]; exact h2 w
    · intro w
      by_cases hw : w = v
      · subst hw; simp [St.deref, upd_same]
      · simp only [St.deref, upd_other _ hw, if_neg hw]
        cases e : s.ptr w with
        | none => rfl
        | some a => simp only [Option.bind_some, upd_other _ (hptr w a e)]
  | some b =>
    have hb := h.live v b hv
    have hbn := hptr v b hv
    obtain ⟨y, hy⟩ := Option.ne_none_iff_exists'.1 hb
    refine ⟨⟨upd s.ptr v (some s.next), upd (upd s.heap s.next (some x)) b none, s.next + 1, s.released⟩, ?_, ⟨?_, ?_, ?_, ?_, ?_⟩, rfl, ?_⟩
    · simp [St.reset, St.alloc, hv, St.delete, upd_other _ hbn, hy]
    · intro w a e
      by_cases hw : w = v
      · subst hw
        simp only [upd_same, Option.some.injEq] at e
        subst e
        simp only [upd_other _ (Ne.symm hbn), upd_same]
        simp
      · simp only [upd_other _ hw] at e
        have : a ≠ b := fun ea => hw (h.inj w v a e (ea ▸ hv))
        simp only [upd_other _ this, upd_other _ (hptr w a e)]
        exact h.live w a e
    · intro w u a e1 e2
      by_cases hw : w = v <;> by_cases hu : u = v
      · rw [hw, hu]
      · subst hw
        simp only [upd_same, Option.some.injEq] at e1
        simp only [upd_other _ hu] at e2
        exact absurd e1.symm (hptr u a e2)
      · subst hu
        simp only [upd_same, Option.some.injEq] at e2
        simp only [upd_other _ hw] at e1
        exact absurd e2.symm (hptr w a e1)
      · simp only [upd_other _ hw] at e1
        simp only [upd_other _ hu] at e2
        exact h.inj w u a e1 e2
    · intro a e
      have hab : a ≠ b := fun ea => by simp [ea, upd_same] at e
      by_cases ha : a = s.next
      · simp [ha]
      · simp only [upd_other _ hab, upd_other _ ha] at e
        exact Nat.lt_succ_of_lt (h.old a e)
    · intro a e
      have hab : a ≠ b := fun ea => by simp [ea, upd_same] at e
      by_cases ha : a = s.next
      · exact Or.inl ⟨v, by simp [upd_same, ha]⟩
      · simp only [upd_other _ hab, upd_other _ ha] at e
        rcases h.owned a e with ⟨w, hw⟩ | hr
        · refine Or.inl ⟨w, ?_⟩
          have : w ≠ v := fun e => by rw [e, hv] at hw; exact hab (Option.some.inj hw).symm
          simp only [upd_other _ this]
          exact hw
        · exact Or.inr hr
    · intro a ha
      obtain ⟨h1, h2⟩ := h.free a ha
      have hne : a ≠ s.next := fun e => h1 (e ▸ hnew)
      have hab : a ≠ b := fun e => h2 v (e ▸ hv)
      refine ⟨by simpa only [upd_other _ hab, upd_other _ hne] using h1, fun w => ?_⟩
      by_cases hw : w = v
      · subst hw; simp only [upd_same]; exact fun e => hne (Option.some.inj e).symm
      · simp only [upd_other _ hw]; exact h2 w
    · intro w
      by_cases hw : w = v
      · subst hw; simp [St.deref, upd_same, upd_other _ (Ne.symm hbn)]
      · simp only [St.deref, upd_other _ hw, if_neg hw]
        cases e : s.ptr w with
        | none => rfl
        | some a =>
          have : a ≠ b := fun ea => hw (h.inj w v a e (ea ▸ hv))
          simp only [Option.bind_some, upd_other _ this, upd_other _ (hptr w a e)]

/-- Making a variable null. -/
theorem reset_null {s : St α} (h : Inv s) (v : Nat) :
    ∃ s', s.reset v none = some s' ∧ Inv s' ∧ s'.released = s.released ∧ s'.ptr = upd s.ptr v none ∧ ∀ w, s'.deref w = if w = v then none else s.deref w := by
  cases hv : s.ptr v with
  | none =>
    have he : upd s.ptr v none = s.ptr := by
      funext w
      by_cases hw : w = v
      · rw [hw, upd_same, hv]
      · rw [upd_other _ hw]
    refine ⟨s, by simp [St.reset, hv, St.delete, he], h, rfl, he.symm, fun w => ?_⟩
    by_cases hw : w = v
    · rw [if_pos hw, hw, St.deref, hv]; rfl
    · rw [if_neg hw]
  | some b =>
    obtain ⟨y, hy⟩ := Option.ne_none_iff_exists'.1 (h.live v b hv)
    refine ⟨⟨upd s.ptr v none, upd s.heap b none, s.next, s.released⟩, by simp [St.reset, hv, St.delete, hy], ⟨?_, ?_, ?_, ?_, ?_⟩, rfl, rfl, ?_⟩
    · intro w a e
      have hw : w ≠ v := fun hw => by simp [hw, upd_same] at e
      simp only [upd_other _ hw] at e
      have : a ≠ b := fun ea => hw (h.inj w v a e (ea ▸ hv))
      simp only [upd_other _ this]
      exact h.live w a e
    · intro w u a e1 e2
      have hw : w ≠ v := fun hw => by simp [hw, upd_same] at e1
      have hu : u ≠ v := fun hu => by simp [hu, upd_same] at e2
      simp only [upd_other _ hw] at e1
      simp only [upd_other _ hu] at e2
      exact h.inj w u a e1 e2
    · intro a e
      have hab : a ≠ b := fun ea => by simp [ea, upd_same] at e
      simp only [upd_other _ hab] at e
      exact h.old a e
    · intro a e
      have hab : a ≠ b := fun ea => by simp [ea, upd_same] at e
      simp only [upd_other _ hab] at e
      rcases h.owned a e with ⟨w, hw⟩ | hr
      · refine Or.inl ⟨w, ?_⟩
        have : w ≠ v := fun e => by rw [e, hv] at hw; exact hab (Option.some.inj hw).symm
        simp only [upd_other _ this]
        exact hw
      · exact Or.inr hr
    · intro a ha
      obtain ⟨h1, h2⟩ := h.free a ha
      have hab : a ≠ b := fun e => h2 v (e ▸ hv)
      refine ⟨by simpa only [upd_other _ hab] using h1, fun w => ?_⟩
      by_cases hw : w = v
      · subst hw; simp [upd_same]
      · simp only [upd_other _ hw]; exact h2 w
    · intro w
      by_cases hw : w = v
      · subst hw; simp [St.deref, upd_same]
      · simp only [St.deref, upd_other _ hw, if_neg hw]
        cases e : s.ptr w with
        | none => rfl
        | some a =>
          have : a ≠ b := fun ea => hw (h.inj w v a e (ea ▸ hv))
          simp only [Option.bind_some, upd_other _ this]

/-- Renaming the pointers: each old pointer is with exactly one variable. -/
theorem rename {s : St α} (h : Inv s) (p : Nat → Option Nat) (hp : ∀ v w a, p v = some a → p w = some a → v = w)
    (h1 : ∀ v a, p v = some a → ∃ u, s.ptr u = some a) (h2 : ∀ u a, s.ptr u = some a → ∃ v, p v = some a) : Inv { s with ptr := p } := by
  refine ⟨fun v a e => ?_, hp, h.old, fun a e => ?_, fun a ha => ⟨(h.free a ha).1, fun v e => ?_⟩⟩
  · obtain ⟨u, hu⟩ := h1 v a e
    exact h.live u a hu
  · rcases h.owned a e with ⟨u, hu⟩ | hr
    · exact Or.inl (h2 u a hu)
    · exact Or.inr hr
  · obtain ⟨u, hu⟩ := h1 v a e
    exact (h.free a ha).2 u hu

theorem delete_ptr (s : St α) (p : Nat → Option Nat) (q : Option Nat) :
    ({ s with ptr := p }).delete q = (s.delete q).map fun t => { t with ptr := p } := by
  cases q with
  | none => rfl
  | some a =>
    simp only [St.delete]
    cases s.heap a <;> rfl

/-- Moving. -/
theorem move_step {s : St α} (h : Inv s) (dst src : Nat) :
    ∃ s', step s (.move dst src) = some s' ∧ Inv s' ∧ s'.released = s.released ∧
      ∀ w, s'.deref w = if w = dst then s.deref src else if w = src then none else s.deref w := by
  by_cases hd : dst = src
  · subst hd
    have he : upd (upd s.ptr dst none) dst (s.ptr dst) = s.ptr := by
      funext w
      by_cases hw : w = dst
      · rw [hw, upd_same]
      · rw [upd_other _ hw, upd_other _ hw]
    refine ⟨s, by simp [step, St.reset, upd_same, St.delete, he], h, rfl, fun w => ?_⟩
    by_cases hw : w = dst
    · rw [if_pos hw, hw]
    · rw [if_neg hw, if_neg hw]
  · obtain ⟨t, ht, hi, hr, hp, hv⟩ := reset_null h dst
    have hts : t.ptr src = s.ptr src := by rw [hp, upd_other _ (Ne.symm hd)]
    have hother : ∀ w, w ≠ dst → t.ptr w = s.ptr w := fun w hw => by rw [hp, upd_other _ hw]
    have htd : t.ptr dst = none := by rw [hp, upd_same]
    let p := upd (upd s.ptr src none) dst (s.ptr src)
    have p1 : p dst = s.ptr src := upd_same _ _ _
    have p2 : p src = none := by rw [show p src = upd s.ptr src none src from upd_other _ (Ne.symm hd) _, upd_same]
    have p3 : ∀ w, w ≠ dst → w ≠ src → p w = s.ptr w := fun w h1 h2 => by
      rw [show p w = upd s.ptr src none w from upd_other _ h1 _, upd_other _ h2]
    refine ⟨{ t with ptr := p }, ?_, ?_, hr, fun w => ?_⟩
    · have e1 : (upd s.ptr src none) dst = s.ptr dst := upd_other _ hd _
      show ({ s with ptr := p }).delete ((upd s.ptr src none) dst) = _
      rw [e1, delete_ptr]
      have e2 : ({ s with ptr := upd s.ptr dst none }).delete (s.ptr dst) = some t := ht
      rw [delete_ptr] at e2
      cases e3 : s.delete (s.ptr dst) with
      | none => rw [e3] at e2; cases e2
      | some u =>
        rw [e3] at e2
        rw [← Option.some.inj e2]
        rfl
    · apply rename hi
      · intro v w a e1 e2
        by_cases h1 : v = dst <;> by_cases h2 : w = dst
        · rw [h1, h2]
        · rw [h1, p1] at e1
          by_cases h3 : w = src
          · rw [h3, p2] at e2; cases e2
          · rw [p3 w h2 h3] at e2
            exact absurd (h.inj w src a e2 e1) h3
        · rw [h2, p1] at e2
          by_cases h3 : v = src
          · rw [h3, p2] at e1; cases e1
          · rw [p3 v h1 h3] at e1
            exact absurd (h.inj v src a e1 e2) h3
        · by_cases h3 : v = src
          · rw [h3, p2] at e1; cases e1
          · by_cases h4 : w = src
            · rw [h4, p2] at e2; cases e2
            · rw [p3 v h1 h3] at e1
              rw [p3 w h2 h4] at e2
              exact h.inj v w a e1 e2
      · intro v a e
        by_cases h1 : v = dst
        · exact ⟨src, by rw [hts, ← p1, ← h1]; exact e⟩
        · by_cases h3 : v = src
          · rw [h3, p2] at e; cases e
          · exact ⟨v, by rw [hother v h1, ← p3 v h1 h3]; exact e⟩
      · intro u a e
        by_cases h1 : u = dst
        · rw [h1, htd] at e; cases e
        · by_cases h3 : u = src
          · exact ⟨dst, by rw [p1, ← hts, ← h3]; exact e⟩
          · exact ⟨u, by rw [p3 u h1 h3, ← hother u h1]; exact e⟩
    · by_cases h1 : w = dst
      · rw [if_pos h1, h1]
        have : t.deref src = s.deref src := by rw [hv, if_neg (Ne.symm hd)]
        rw [← this]
        simp only [St.deref, p1, hts]
      · rw [if_neg h1]
        by_cases h3 : w = src
        · rw [if_pos h3, h3]
          simp only [St.deref, p2]
          rfl
        · rw [if_neg h3]
          have : t.deref w = s.deref w := by rw [hv, if_neg h1]
          rw [← this]
          simp only [St.deref, p3 w h1 h3, hother w h1]

theorem swap_step {s : St α} (h : Inv s) (v w : Nat) :
    ∃ s', step s (.swap v w) = some s' ∧ Inv s' ∧ s'.released = s.released ∧
      ∀ u, s'.deref u = if u = w then s.deref v else if u = v then s.deref w else s.deref u := by
  refine ⟨_, rfl, ?_, rfl, fun u => ?_⟩
  · have key : ∀ u, (upd (upd s.ptr v (s.ptr w)) w (s.ptr v)) u = s.ptr (if u = w then v else if u = v then w else u) := by
      intro u
      unfold upd
      split
      · rfl
      · split <;> rfl
    apply rename h
    · intro a b c e1 e2
      rw [key] at e1 e2
      have := h.inj _ _ _ e1 e2
      split at this <;> split at this <;> (try split at this) <;> (try split at this) <;> omega
    · intro a c e
      rw [key] at e
      exact ⟨_, e⟩
    · intro a c e
      refine ⟨if a = w then v else if a = v then w else a, ?_⟩
      rw [key, ← e]
      congr 1
      repeat' split
      all_goals omega
  · simp only [St.deref, upd]
    split
    · rfl
    · split <;> rfl

theorem release_step {s : St α} (h : Inv s) (v : Nat) :
    ∃ s', step s (.release v) = some s' ∧ Inv s' ∧ s'.released = (s.ptr v).toList ++ s.released ∧ s'.heap = s.heap ∧
      ∀ w, s'.deref w = if w = v then none else s.deref w := by
  refine ⟨_, rfl, ⟨?_, ?_, h.old, ?_, ?_⟩, rfl, rfl, ?_⟩
  · intro w a e
    have hw : w ≠ v := fun hw => by simp [hw, upd_same] at e
    simp only [upd_other _ hw] at e
    exact h.live w a e
  · intro w u a e1 e2
    have hw : w ≠ v := fun hw => by simp [hw, upd_same] at e1
    have hu : u ≠ v := fun hu => by simp [hu, upd_same] at e2
    simp only [upd_other _ hw] at e1
    simp only [upd_other _ hu] at e2
    exact h.inj w u a e1 e2
  · intro a e
    rcases h.owned a e with ⟨w, hw⟩ | hr
    · by_cases h1 : w = v
      · exact Or.inr (by rw [← h1, hw]; simp)
      · exact Or.inl ⟨w, by simpa only [upd_other _ h1] using hw⟩
    · exact Or.inr (List.mem_append_right _ hr)
  · intro a ha
    rcases List.mem_append.1 ha with h1 | h1
    · have hv : s.ptr v = some a := by simpa using h1
      refine ⟨h.live v a hv, fun w e => ?_⟩
      have hw : w ≠ v := fun hw => by simp [hw, upd_same] at e
      simp only [upd_other _ hw] at e
      exact hw (h.inj w v a e hv)
    · refine ⟨(h.free a h1).1, fun w e => ?_⟩
      have hw : w ≠ v := fun hw => by simp [hw, upd_same] at e
      simp only [upd_other _ hw] at e
      exact (h.free a h1).2 w e
  · intro w
    by_cases hw : w = v
    · subst hw; simp [St.deref, upd_same]
    · simp only [St.deref, upd_other _ hw, if_neg hw]

theorem write_step {s : St α} (h : Inv s) (v : Nat) (x : α) (hv : s.deref v ≠ none) :
    ∃ s', step s (.write v x) = some s' ∧ Inv s' ∧ s'.released = s.released ∧ ∀ w, s'.deref w = if w = v then some x else s.deref w := by
  cases hp : s.ptr v with
  | none => exact absurd (by simp [St.deref, hp]) hv
  | some b =>
    obtain ⟨y, hy⟩ := Option.ne_none_iff_exists'.1 (h.live v b hp)
    have hne : ∀ a, upd s.heap b (some x) a ≠ none ↔ s.heap a ≠ none := by
      intro a
      by_cases ha : a = b
      · rw [ha, upd_same, hy]; simp
      · rw [upd_other _ ha]
    refine ⟨{ s with heap := upd s.heap b (some x) }, by simp [step, hp, hy], ⟨fun w a e => (hne a).2 (h.live w a e), h.inj,
      fun a e => h.old a ((hne a).1 e), fun a e => h.owned a ((hne a).1 e), fun a ha => ⟨(hne a).2 (h.free a ha).1, (h.free a ha).2⟩⟩, rfl, fun w => ?_⟩
    by_cases hw : w = v
    · subst hw; simp [St.deref, hp, upd_same]
    · simp only [St.deref, if_neg hw]
      cases e : s.ptr w with
      | none => rfl
      | some a =>
        have : a ≠ b := fun ea => hw (h.inj w v a e (ea ▸ hp))
        simp only [Option.bind_some, upd_other _ this]

/-- One operation: undefined exactly where the specification has no value, otherwise the values are those of the specification. -/
theorem step_exact {s : St α} (h : Inv s) (o : Op α) :
    (specStep s.deref o = none ∧ step s o = none) ∨ ∃ s', step s o = some s' ∧ Inv s' ∧ specStep s.deref o = some s'.deref := by
  cases o with
  | make v x =>
    obtain ⟨s', h1, h2, _, h4⟩ := reset_new h v x
    exact Or.inr ⟨s', h1, h2, congrArg some (funext h4).symm⟩
  | copy dst src =>
    cases e : s.deref src with
    | none => exact Or.inl ⟨by simp [specStep, e], by simp [step, e]⟩
    | some x =>
      obtain ⟨s', h1, h2, _, h4⟩ := reset_new h dst x
      refine Or.inr ⟨s', by simpa [step, e] using h1, h2, ?_⟩
      simp only [specStep, e, reduceCtorEq, if_false]
      exact congrArg some (funext h4).symm
  | move dst src =>
    obtain ⟨s', h1, h2, _, h4⟩ := move_step h dst src
    exact Or.inr ⟨s', h1, h2, congrArg some (funext h4).symm⟩
  | reset v =>
    obtain ⟨s', h1, h2, _, _, h4⟩ := reset_null h v
    exact Or.inr ⟨s', h1, h2, congrArg some (funext h4).symm⟩
  | release v =>
    obtain ⟨s', h1, h2, _, _, h4⟩ := release_step h v
    exact Or.inr ⟨s', h1, h2, congrArg some (funext h4).symm⟩
  | swap v w =>
    obtain ⟨s', h1, h2, _, h4⟩ := swap_step h v w
    exact Or.inr ⟨s', h1, h2, congrArg some (funext h4).symm⟩
  | write v x =>
    by_cases e : s.deref v = none
    · refine Or.inl ⟨by simp [specStep, e], ?_⟩
      cases hp : s.ptr v with
      | none => simp [step, hp]
      | some a => exact absurd (by simpa [St.deref, hp] using e) (h.live v a hp)
    · obtain ⟨s', h1, h2, _, h4⟩ := write_step h v x e
      refine Or.inr ⟨s', h1, h2, ?_⟩
      simp only [specStep, e, if_false]
      exact congrArg some (funext h4).symm

theorem run_inv (os : List (Op α)) : ∀ {s : St α}, Inv s → (run os s).map St.deref = specRun os s.deref ∧ ∀ s', run os s = some s' → Inv s' := by
  induction os with
  | nil => exact fun h => ⟨rfl, fun s' e => by cases e; exact h⟩
  | cons o os ih =>
    intro s h
    rcases step_exact h o with ⟨h1, h2⟩ | ⟨s', h1, h2, h3⟩
    · exact ⟨by simp [run, specRun, h1, h2], fun s' e => by simp [run, h2] at e⟩
    · obtain ⟨i1, i2⟩ := ih h2
      exact ⟨by simpa [run, specRun, h1, h3] using i1, fun t e => i2 t (by simpa [run, h1] using e)⟩

end Verif.CopyPtr
