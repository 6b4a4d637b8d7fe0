import Verif.Spec.Function
/-! Helper lemmas for `function`. -/
namespace Verif.Function

theorem upd_self {β : Type} (f : Nat → β) (i : Nat) (x : β) : upd f i x i = x := by simp [upd]
theorem upd_ne {β : Type} (f : Nat → β) {i j : Nat} (h : j ≠ i) (x : β) : upd f i x j = f j := by
  simp [upd, h]

/-- What the abstract state says about the callable held. -/
def Rep : Option (Option Callable) → Option (Option (Nat × Bool)) → Prop
  | none, none => True
  | some none, some none => True
  | some (some c), some (some (v, cp)) => c.invoke = some v ∧ ∀ n, (cloneFrom c n).isSome = cp
  | _, _ => False

structure Inv (s : St) (a : Abs) : Prop where
  rep : ∀ i, Rep (s.obj i) (a i)
  nodup : s.destroyed.Nodup
  old : ∀ id ∈ s.destroyed, id < s.next
  held : ∀ i c, s.obj i = some (some c) → c.ids.Nodup ∧ ∀ id ∈ c.ids, id < s.next ∧ id ∉ s.destroyed
  disj : ∀ i j c d, s.obj i = some (some c) → s.obj j = some (some d) → i ≠ j →
    ∀ id ∈ c.ids, id ∉ d.ids

def NoLeak (s : St) : Prop := ∀ id, id < s.next → id ∈ s.destroyed ∨ Held s id

theorem alive_iff (s : St) (id : Nat) : alive s id = true ↔ id < s.next ∧ id ∉ s.destroyed := by
  simp [alive]

theorem all_alive {s : St} {l : List Nat} :
    l.all (alive s) = true ↔ ∀ id ∈ l, id < s.next ∧ id ∉ s.destroyed := by
  simp only [List.all_eq_true, alive_iff]

theorem clone_spec : ∀ (c : Callable) (n : Nat) (d : Callable) (m : Nat), cloneFrom c n = some (d, m) →
    n ≤ m ∧ d.ids.Nodup ∧ (∀ id, id ∈ d.ids ↔ n ≤ id ∧ id < m) ∧ d.invoke = c.invoke ∧
    ∀ k, (cloneFrom d k).isSome = true := by
  intro c
  induction c with
  | leaf id v cp =>
    intro n d m h
    cases cp with
    | false => simp [cloneFrom] at h
    | true =>
      simp [cloneFrom] at h
      obtain ⟨rfl, rfl⟩ := h
      refine ⟨by omega, by simp [Callable.ids], ?_, rfl, fun k => rfl⟩
      intro id
      simp [Callable.ids]
      omega
  | wrapEmpty id =>
    intro n d m h
    simp [cloneFrom] at h
    obtain ⟨rfl, rfl⟩ := h
    refine ⟨by omega, by simp [Callable.ids], ?_, rfl, fun k => rfl⟩
    intro id
    simp [Callable.ids]
    omega
  | wrap id c ih =>
    intro n d m h
    simp only [cloneFrom, Option.map_eq_some_iff] at h
    obtain ⟨⟨d', m'⟩, h1, h2⟩ := h
    simp only [Prod.mk.injEq] at h2
    obtain ⟨rfl, rfl⟩ := h2
    obtain ⟨i1, i2, i3, i4, i5⟩ := ih n d' m' h1
    refine ⟨by omega, ?_, ?_, i4, ?_⟩
    · simp only [Callable.ids, List.nodup_cons]
      refine ⟨?_, i2⟩
      rw [i3]
      omega
    · intro id
      simp only [Callable.ids, List.mem_cons, i3]
      omega
    · intro k
      simpa [cloneFrom] using i5 k

theorem clone_isSome (c : Callable) (n m : Nat) : (cloneFrom c n).isSome = (cloneFrom c m).isSome := by
  induction c with
  | leaf id v cp => cases cp <;> rfl
  | wrapEmpty id => rfl
  | wrap id c ih => simpa [cloneFrom] using ih

/-- Destroying what an object holds always works; what remains is an object whose callable is gone. -/
theorem destroy_spec {s : St} {a : Abs} (h : Inv s a) {i : Nat} {c : Option Callable}
    (hi : s.obj i = some c) :
    ∃ s', destroy c s = some s' ∧ s'.next = s.next ∧ s'.obj = s.obj ∧ s'.destroyed.Nodup ∧
      (∀ id ∈ s'.destroyed, id < s.next) ∧
      (∀ id, id ∈ s'.destroyed ↔ id ∈ s.destroyed ∨ ∃ d, c = some d ∧ id ∈ d.ids) := by
  cases c with
  | none => exact ⟨s, rfl, rfl, rfl, h.nodup, h.old, fun id => by simp⟩
  | some d =>
    obtain ⟨h1, h2⟩ := h.held i d hi
    refine ⟨{ s with destroyed := d.ids ++ s.destroyed },
      by simp only [destroy, if_pos (all_alive.2 h2)], rfl, rfl, ?_, ?_, ?_⟩
    · refine List.nodup_append.2 ⟨h1, h.nodup, ?_⟩
      intro x hx y hy he
      subst he
      exact (h2 x hx).2 hy
    · intro id hid
      rcases List.mem_append.1 hid with hid | hid
      · exact (h2 id hid).1
      · exact h.old id hid
    · intro id
      simp [or_comm]

/-- After the callable of `i` was destroyed the object `i` gets a callable with identities in
`[s.next, m)`, or none, or ceases to be. -/
theorem inv_renew {s s' : St} {a : Abs} (h : Inv s a) {i m : Nat} {x : Option (Option Callable)}
    {ax : Option (Option (Nat × Bool))}
    (hn : s.next ≤ m) (hd : s'.destroyed.Nodup) (hl : ∀ id ∈ s'.destroyed, id < s.next)
    (hm : ∀ id, id ∈ s'.destroyed → id ∈ s.destroyed ∨ ∃ d, s.obj i = some (some d) ∧ id ∈ d.ids)
    (hnx : s'.next = m) (ho : s'.obj = upd s.obj i x)
    (hx : ∀ c, x = some (some c) → c.ids.Nodup ∧ ∀ id ∈ c.ids, s.next ≤ id ∧ id < m)
    (hr : Rep x ax) : Inv s' (upd a i ax) := by
  have obj : ∀ j, s'.obj j = if j = i then x else s.obj j := by
    intro j; rw [ho]; simp only [upd]
  refine ⟨?_, hd, ?_, ?_, ?_⟩
  · intro j
    rw [obj]
    by_cases hj : j = i
    · subst hj; simpa [upd_self] using hr
    · rw [upd_ne _ hj, if_neg hj]; exact h.rep j
  · intro id hid; have := hl id hid; omega
  · intro j c hc
    rw [obj] at hc
    by_cases hj : j = i
    · subst hj
      rw [if_pos rfl] at hc
      obtain ⟨h1, h2⟩ := hx c hc
      refine ⟨h1, fun id hid => ⟨by have := h2 id hid; omega, fun hin => ?_⟩⟩
      have := hl id hin
      have := h2 id hid
      omega
    · rw [if_neg hj] at hc
      obtain ⟨h1, h2⟩ := h.held j c hc
      refine ⟨h1, fun id hid => ⟨by have := (h2 id hid).1; omega, fun hin => ?_⟩⟩
      rcases hm id hin with h3 | ⟨d, h3, h4⟩
      · exact (h2 id hid).2 h3
      · exact h.disj j i c d hc h3 hj id hid h4
  · intro j k c d hc hdk hjk id hid hid'
    rw [obj] at hc hdk
    by_cases hj : j = i
    · rw [if_pos hj] at hc
      rw [if_neg (fun e => hjk (hj.trans e.symm))] at hdk
      have := (hx c hc).2 id hid
      have := ((h.held k d hdk).2 id hid').1
      omega
    · rw [if_neg hj] at hc
      by_cases hk : k = i
      · rw [if_pos hk] at hdk
        have := (hx d hdk).2 id hid'
        have := ((h.held j c hc).2 id hid).1
        omega
      · rw [if_neg hk] at hdk
        exact h.disj j k c d hc hdk hjk id hid hid'

/-- Nothing is lost when the old callable of `i` was destroyed (or there was none). -/
theorem leak_renew {s s' : St} (hk : NoLeak s) {i m : Nat} {x : Option (Option Callable)}
    (hm : ∀ id, id ∈ s.destroyed ∨ (∃ d, s.obj i = some (some d) ∧ id ∈ d.ids) → id ∈ s'.destroyed)
    (hnx : s'.next = m) (ho : s'.obj = upd s.obj i x)
    (hx : ∀ id, s.next ≤ id → id < m → ∃ c, x = some (some c) ∧ id ∈ c.ids) : NoLeak s' := by
  intro id hid
  rw [hnx] at hid
  by_cases hlt : id < s.next
  · rcases hk id hlt with h | ⟨j, c, hj, hc⟩
    · exact Or.inl (hm id (Or.inl h))
    · by_cases hji : j = i
      · subst hji; exact Or.inl (hm id (Or.inr ⟨c, hj, hc⟩))
      · exact Or.inr ⟨j, c, by rw [ho, upd_ne _ hji]; exact hj, hc⟩
  · obtain ⟨c, h1, h2⟩ := hx id (by omega) hid
    exact Or.inr ⟨i, c, by rw [ho, upd_self, h1], h2⟩

/-- Moving the holding of `j` to `i ≠ j`. -/
theorem inv_move {s s' : St} {a : Abs} (h : Inv s a) {i j : Nat} {o : Option Callable}
    {ao : Option (Nat × Bool)} (hij : i ≠ j) (hj : s.obj j = some o) (haj : a j = some ao)
    (hs : s' = setObj (setObj s j none) i o) : Inv s' (upd (upd a j (some none)) i (some ao)) := by
  subst hs
  have obj : ∀ k, (setObj (setObj s j none) i o).obj k =
      if k = i then some o else if k = j then some none else s.obj k := fun k => rfl
  have from_old : ∀ k c, (setObj (setObj s j none) i o).obj k = some (some c) →
      ∃ k', s.obj k' = some (some c) ∧ k' = (if k = i then j else k) ∧ k ≠ j := by
    intro k c hc
    rw [obj] at hc
    by_cases hk : k = i
    · rw [if_pos hk] at hc
      exact ⟨j, by rw [hj]; exact hc, by rw [if_pos hk], fun e => hij (hk.symm.trans e)⟩
    · rw [if_neg hk] at hc
      by_cases hkj : k = j
      · rw [if_pos hkj] at hc; simp at hc
      · rw [if_neg hkj] at hc
        exact ⟨k, hc, by rw [if_neg hk], hkj⟩
  refine ⟨?_, h.nodup, h.old, ?_, ?_⟩
  · intro k
    rw [obj]
    by_cases hk : k = i
    · subst hk
      rw [upd_self, if_pos rfl]
      have := h.rep j
      rwa [hj, haj] at this
    · rw [upd_ne _ hk, if_neg hk]
      by_cases hkj : k = j
      · subst hkj; rw [upd_self, if_pos rfl]; trivial
      · rw [upd_ne _ hkj, if_neg hkj]; exact h.rep k
  · intro k c hc
    obtain ⟨k', hk', -, -⟩ := from_old k c hc
    exact h.held k' c hk'
  · intro k l c d hc hd hkl
    obtain ⟨k', hk', ek, hkj⟩ := from_old k c hc
    obtain ⟨l', hl', el, hlj⟩ := from_old l d hd
    refine h.disj k' l' c d hk' hl' ?_
    rw [ek, el]
    intro e
    by_cases h1 : k = i <;> by_cases h2 : l = i <;> simp [h1, h2] at e
    · exact hkl (h1.trans h2.symm)
    · exact hlj e.symm
    · exact hkj e
    · exact hkl e

theorem leak_move {s : St} (hk : NoLeak s) {i j : Nat} {o : Option Callable} (hij : i ≠ j)
    (hj : s.obj j = some o) (hi : ∀ d, s.obj i ≠ some (some d)) :
    NoLeak (setObj (setObj s j none) i o) := by
  intro id hid
  have obj : ∀ k, (setObj (setObj s j none) i o).obj k =
      if k = i then some o else if k = j then some none else s.obj k := fun k => rfl
  rcases hk id hid with h | ⟨k, c, hc, hm⟩
  · exact Or.inl h
  · right
    by_cases hkj : k = j
    · subst hkj
      rw [hj] at hc
      refine ⟨i, c, ?_, hm⟩
      rw [obj, if_pos rfl]; exact hc
    · by_cases hki : k = i
      · subst hki; exact absurd hc (hi c)
      · exact ⟨k, c, by rw [obj, if_neg hki, if_neg hkj]; exact hc, hm⟩

theorem rep_dead {x : Option (Option Callable)} {ax : Option (Option (Nat × Bool))} (h : Rep x ax) :
    x = none ↔ ax = none := by
  match x, ax, h with
  | none, none, _ => simp
  | some none, some none, _ => simp
  | some (some c), some (some (v, cp)), _ => simp

theorem rep_some {x : Option (Option Callable)} {ax : Option (Nat × Bool)} (h : Rep x (some ax)) :
    (x = some none ∧ ax = none) ∨ ∃ c v cp, x = some (some c) ∧ ax = some (v, cp) ∧
      c.invoke = some v ∧ ∀ n, (cloneFrom c n).isSome = cp := by
  match x, ax, h with
  | some none, none, _ => exact Or.inl ⟨rfl, rfl⟩
  | some (some c), some (v, cp), h => exact Or.inr ⟨c, v, cp, rfl, rfl, h⟩

/-- Copying from `j` to `i ≠ j`. -/
theorem copyInto_spec {s : St} {a : Abs} (h : Inv s a) {i j : Nat} {o : Option Callable}
    {ao : Option (Nat × Bool)} (hj : s.obj j = some o) (haj : a j = some ao) :
    ∃ s', copyInto i o s = some (s', (specCopy a i ao).2) ∧ Inv s' (specCopy a i ao).1 ∧
      (NoLeak s → (∀ d, s.obj i ≠ some (some d)) → NoLeak s') := by
  have hr := h.rep j
  rw [hj, haj] at hr
  rcases rep_some hr with ⟨e1, e2⟩ | ⟨c, v, cp, e1, e2, h3, h4⟩
  · cases e1
    subst e2
    refine ⟨setObj s i none, rfl, ?_, ?_⟩
    · exact inv_renew h (Nat.le_refl _) h.nodup h.old (fun id hid => Or.inl hid) rfl rfl
        (fun c hc => by simp at hc) trivial
    · intro hk hi
      refine leak_renew hk (i := i) (m := s.next) (x := some none) ?_ rfl rfl (fun id h1 h2 => by omega)
      rintro id (h | ⟨d, hd, -⟩)
      · exact h
      · exact absurd hd (hi d)
  · cases e1
    subst e2
    have hal := all_alive.2 (h.held j c hj).2
    cases cp with
    | false =>
      have hn : cloneFrom c s.next = none := by
        have := h4 s.next
        simpa using this
      exact ⟨s, by simp only [copyInto, if_pos hal, hn, specCopy], h, fun hk _ => hk⟩
    | true =>
      obtain ⟨⟨d, m⟩, hd⟩ := Option.isSome_iff_exists.1 (h4 s.next)
      obtain ⟨c1, c2, c3, c4, c5⟩ := clone_spec c s.next d m hd
      refine ⟨{ setObj s i (some d) with next := m }, by simp only [copyInto, if_pos hal, hd, specCopy],
        ?_, ?_⟩
      · refine inv_renew (ax := some (some (v, true))) h c1 h.nodup h.old (fun id hid => Or.inl hid)
          rfl rfl ?_ ?_
        · intro e he
          cases he
          exact ⟨c2, fun id hid => (c3 id).1 hid⟩
        · exact ⟨by rw [c4, h3], c5⟩
      · intro hk hi
        refine leak_renew hk (i := i) (x := some (some d)) ?_ rfl rfl
          (fun id h1 h2 => ⟨d, rfl, (c3 id).2 ⟨h1, h2⟩⟩)
        rintro id (h | ⟨d, hd, -⟩)
        · exact h
        · exact absurd hd (hi d)

theorem dead_of {s : St} {a : Abs} (h : Inv s a) {i : Nat} (ha : a i = none) : s.obj i = none :=
  (rep_dead (h.rep i)).2 ha

theorem live_of {s : St} {a : Abs} (h : Inv s a) {i : Nat} {x : Option (Nat × Bool)}
    (ha : a i = some x) : ∃ o, s.obj i = some o := by
  have := h.rep i
  rw [ha] at this
  rcases rep_some this with ⟨e, -⟩ | ⟨c, _, _, e, -⟩ <;> exact ⟨_, e⟩

theorem empty_of {s : St} {a : Abs} (h : Inv s a) {i : Nat} (ha : a i = some none) :
    s.obj i = some none := by
  have := h.rep i
  rw [ha] at this
  rcases rep_some this with ⟨e, -⟩ | ⟨c, _, _, e, e', -⟩
  · exact e
  · cases e'

/-- Every handled call has its specified effect. -/
theorem step_spec {s : St} {a a' : Abs} {op : Op} {th : Bool} (h : Inv s a) (hh : Handled a op)
    (hs : specStep a op = some (a', th)) :
    ∃ s', step s op = some (s', th) ∧ Inv s' a' ∧ (NoLeak s → Frugal a op → NoLeak s') := by
  cases op with
  | ctor i =>
    simp only [specStep] at hs
    by_cases ha : a i = none
    · rw [if_pos ha] at hs
      cases hs
      have hi := dead_of h ha
      refine ⟨setObj s i none, by simp only [step, ctor, hi], ?_, ?_⟩
      · exact inv_renew h (Nat.le_refl _) h.nodup h.old (fun id hid => Or.inl hid) rfl rfl
          (fun c hc => by simp at hc) trivial
      · intro hk _
        refine leak_renew hk (i := i) (m := s.next) (x := some none) ?_ rfl rfl (fun id h1 h2 => by omega)
        rintro id (h | ⟨d, hd, -⟩)
        · exact h
        · rw [hi] at hd; cases hd
    · rw [if_neg ha] at hs; cases hs
  | dtor i =>
    simp only [specStep] at hs
    obtain ⟨x, ha, he⟩ := Option.map_eq_some_iff.1 hs
    cases he
    obtain ⟨o, hi⟩ := live_of h ha
    obtain ⟨s1, d1, d2, d3, d4, d5, d6⟩ := destroy_spec h hi
    refine ⟨{ s1 with obj := upd s1.obj i none }, ?_, ?_, ?_⟩
    · simp only [step, dtor, hi, d1, Option.bind_eq_bind, Option.bind_some]; rfl
    · refine inv_renew (x := none) (ax := none) h (Nat.le_refl _) d4 d5 ?_ d2 (by rw [← d3])
        (fun c hc => by cases hc) trivial
      intro id hid
      rcases (d6 id).1 hid with h1 | ⟨d, rfl, h2⟩
      · exact Or.inl h1
      · exact Or.inr ⟨d, hi, h2⟩
    · intro hk _
      refine leak_renew hk (i := i) (x := none) ?_ d2 (by rw [← d3]) (fun id h1 h2 => by omega)
      rintro id (h1 | ⟨d, hd, h2⟩)
      · exact (d6 id).2 (Or.inl h1)
      · rw [hi] at hd
        exact (d6 id).2 (Or.inr ⟨d, by simpa using hd, h2⟩)
  | ctorFrom i v cp t =>
    simp only [specStep] at hs
    by_cases ha : a i = none
    · rw [if_pos ha] at hs
      have hi := dead_of h ha
      cases t with
      | true =>
        simp at hs
        obtain ⟨rfl, rfl⟩ := hs
        exact ⟨s, by simp [step, ctorFrom, hi], h, fun hk _ => hk⟩
      | false =>
        simp at hs
        obtain ⟨rfl, rfl⟩ := hs
        refine ⟨{ setObj s i (some (.leaf s.next v cp)) with next := s.next + 1 },
          by simp [step, ctorFrom, hi], ?_, ?_⟩
        · refine inv_renew (m := s.next + 1) h (by omega) h.nodup h.old (fun id hid => Or.inl hid) rfl
            rfl ?_ ?_
          · intro c hc
            cases hc
            simp [Callable.ids]
          · exact ⟨rfl, fun n => by cases cp <;> rfl⟩
        · intro hk _
          refine leak_renew hk (i := i) (m := s.next + 1) ?_ rfl rfl
            (fun id h1 h2 => ⟨_, rfl, by simp [Callable.ids]; omega⟩)
          rintro id (h | ⟨d, hd, -⟩)
          · exact h
          · rw [hi] at hd; cases hd
    · rw [if_neg ha] at hs; cases hs
  | assign i v cp t =>
    simp only [specStep] at hs
    obtain ⟨x, ha, he⟩ := Option.map_eq_some_iff.1 hs
    obtain ⟨o, hi⟩ := live_of h ha
    cases t with
    | true =>
      simp at he
      obtain ⟨rfl, rfl⟩ := he
      have hi := empty_of h (hh rfl)
      exact ⟨s, by simp [step, assign, hi, destroy], h, fun hk _ => hk⟩
    | false =>
      simp at he
      obtain ⟨rfl, rfl⟩ := he
      obtain ⟨s1, d1, d2, d3, d4, d5, d6⟩ := destroy_spec h hi
      refine ⟨{ setObj s1 i (some (.leaf s1.next v cp)) with next := s1.next + 1 }, ?_, ?_, ?_⟩
      · simp [step, assign, hi, d1]
      · refine inv_renew (m := s.next + 1) (x := some (some (.leaf s.next v cp))) h (by omega) d4 d5 ?_
          (by rw [d2]) (by rw [← d3, d2]; rfl) ?_ ?_
        · intro id hid
          rcases (d6 id).1 hid with h1 | ⟨d, rfl, h2⟩
          · exact Or.inl h1
          · exact Or.inr ⟨d, hi, h2⟩
        · intro c hc
          cases hc
          simp [Callable.ids]
        · exact ⟨rfl, fun n => by cases cp <;> rfl⟩
      · intro hk _
        refine leak_renew hk (i := i) (m := s.next + 1) (x := some (some (.leaf s.next v cp))) ?_
          (by rw [d2]) (by rw [← d3, d2]; rfl)
          (fun id h1 h2 => ⟨_, rfl, by simp [Callable.ids]; omega⟩)
        rintro id (h1 | ⟨d, hd, h2⟩)
        · exact (d6 id).2 (Or.inl h1)
        · rw [hi] at hd
          exact (d6 id).2 (Or.inr ⟨d, by simpa using hd, h2⟩)
  | copyCtor i j =>
    simp only [specStep] at hs
    by_cases ha : a i = none
    · rw [if_pos ha] at hs
      obtain ⟨ao, haj, he⟩ := Option.map_eq_some_iff.1 hs
      obtain ⟨o, hj⟩ := live_of h haj
      obtain ⟨s', h1, h2, h3⟩ := copyInto_spec h (i := i) hj haj
      rw [he] at h1 h2
      have hi := dead_of h ha
      refine ⟨s', ?_, h2, fun hk _ => h3 hk (fun d hd => by rw [hi] at hd; cases hd)⟩
      simp only [step, copyCtor, hi, hj, Option.bind_eq_bind, Option.bind_some]
      exact h1
    · rw [if_neg ha] at hs; cases hs
  | copyAssign i j =>
    simp only [specStep] at hs
    obtain ⟨ai, hai, hs⟩ := Option.bind_eq_some_iff.1 hs
    obtain ⟨ao, haj, he⟩ := Option.map_eq_some_iff.1 hs
    obtain ⟨o, hj⟩ := live_of h haj
    obtain ⟨oi, hi⟩ := live_of h hai
    by_cases hij : i = j
    · rw [if_pos hij] at he
      cases he
      exact ⟨s, by simp [step, copyAssign, hj, hij], h, fun hk _ => hk⟩
    · rw [if_neg hij] at he
      obtain ⟨s', h1, h2, h3⟩ := copyInto_spec h (i := i) hj haj
      rw [he] at h1 h2
      refine ⟨s', ?_, h2, ?_⟩
      · simp only [step, copyAssign, hi, hj, Option.bind_eq_bind, Option.bind_some, if_neg hij]
        exact h1
      · intro hk hf
        rcases hf with hf | hf
        · exact absurd hf hij
        · have := empty_of h hf
          exact h3 hk (fun d hd => by rw [this] at hd; simp at hd)
  | lvalAssign i j =>
    obtain ⟨hij, v, haj⟩ := hh
    simp only [specStep, haj, Option.map_some, if_neg hij, specCopy] at hs
    obtain ⟨ai, hai, hs⟩ := Option.bind_eq_some_iff.1 hs
    simp only [Option.some.injEq, Prod.mk.injEq] at hs
    obtain ⟨rfl, rfl⟩ := hs
    obtain ⟨oi, hi⟩ := live_of h hai
    have hr := h.rep j
    rw [haj] at hr
    rcases rep_some hr with ⟨-, e2⟩ | ⟨c, v', cp, hj, e2, h3, h4⟩
    · cases e2
    · cases e2
      obtain ⟨s1, d1, d2, d3, d4, d5, d6⟩ := destroy_spec h hi
      have hal : c.ids.all (alive s1) = true := by
        refine all_alive.2 fun id hid => ⟨by rw [d2]; exact ((h.held j c hj).2 id hid).1, fun hin => ?_⟩
        rcases (d6 id).1 hin with h5 | ⟨d, rfl, h5⟩
        · exact ((h.held j c hj).2 id hid).2 h5
        · exact h.disj j i c d hj hi (Ne.symm hij) id hid h5
      obtain ⟨⟨d, m⟩, hd⟩ := Option.isSome_iff_exists.1 (h4 s.next)
      obtain ⟨c1, c2, c3, c4, c5⟩ := clone_spec c s.next d m hd
      have hids : ∀ id, id ∈ (Callable.wrap m d).ids ↔ s.next ≤ id ∧ id < m + 1 := by
        intro id
        simp only [Callable.ids, List.mem_cons, c3]
        omega
      refine ⟨{ setObj s1 i (some (.wrap m d)) with next := m + 1 }, ?_, ?_, ?_⟩
      · simp only [step, lvalAssign, hi, d1, d3, hj, Option.bind_eq_bind, Option.bind_some, if_pos hal,
          d2, hd]
        rfl
      · refine inv_renew (m := m + 1) (x := some (some (.wrap m d))) h (by omega) d4 d5 ?_ rfl
          (by rw [← d3]; rfl) ?_ ?_
        · intro id hid
          rcases (d6 id).1 hid with h1 | ⟨d, rfl, h2⟩
          · exact Or.inl h1
          · exact Or.inr ⟨d, hi, h2⟩
        · intro e he
          cases he
          refine ⟨?_, fun id hid => (hids id).1 hid⟩
          simp only [Callable.ids, List.nodup_cons, c3]
          exact ⟨by omega, c2⟩
        · exact ⟨by simp only [Callable.invoke]; rw [c4, h3], fun n => by simpa [cloneFrom] using c5 n⟩
      · intro hk _
        refine leak_renew hk (i := i) (m := m + 1) (x := some (some (.wrap m d))) ?_ rfl
          (by rw [← d3]; rfl) (fun id h1 h2 => ⟨_, rfl, (hids id).2 ⟨h1, h2⟩⟩)
        rintro id (h1 | ⟨d, hd, h2⟩)
        · exact (d6 id).2 (Or.inl h1)
        · rw [hi] at hd
          exact (d6 id).2 (Or.inr ⟨d, by simpa using hd, h2⟩)
  | moveCtor i j =>
    simp only [specStep] at hs
    by_cases ha : a i = none
    · rw [if_pos ha] at hs
      obtain ⟨ao, haj, he⟩ := Option.map_eq_some_iff.1 hs
      cases he
      obtain ⟨o, hj⟩ := live_of h haj
      have hi := dead_of h ha
      have hij : i ≠ j := fun e => by subst e; rw [ha] at haj; cases haj
      refine ⟨_, by simp only [step, moveCtor, hi, hj, Option.bind_eq_bind, Option.bind_some]; rfl,
        inv_move h hij hj haj rfl, fun hk _ => leak_move hk hij hj (fun d hd => by rw [hi] at hd; cases hd)⟩
    · rw [if_neg ha] at hs; cases hs
  | moveAssign i j =>
    simp only [specStep] at hs
    obtain ⟨ai, hai, hs⟩ := Option.bind_eq_some_iff.1 hs
    obtain ⟨ao, haj, he⟩ := Option.map_eq_some_iff.1 hs
    obtain ⟨o, hj⟩ := live_of h haj
    obtain ⟨oi, hi⟩ := live_of h hai
    by_cases hij : i = j
    · rw [if_pos hij] at he
      cases he
      exact ⟨s, by simp [step, moveAssign, hj, hij], h, fun hk _ => hk⟩
    · rw [if_neg hij] at he
      cases he
      refine ⟨_, by simp only [step, moveAssign, hi, hj, Option.bind_eq_bind, Option.bind_some,
        if_neg hij]; rfl, inv_move h hij hj haj rfl, ?_⟩
      intro hk hf
      rcases hf with hf | hf
      · exact absurd hf hij
      · have := empty_of h hf
        exact leak_move hk hij hj (fun d hd => by rw [this] at hd; simp at hd)

theorem init_inv : Inv init (fun _ => none) :=
  ⟨fun _ => trivial, List.nodup_nil, fun _ h => absurd h (by simp [init]), fun _ _ h => (by cases h),
    fun _ _ _ _ h => (by cases h)⟩

theorem shows_inv {s : St} {a : Abs} (h : Inv s a) : Shows s a := by
  intro i
  have hr := h.rep i
  cases ha : a i with
  | none => exact dead_of h ha
  | some x =>
    rw [ha] at hr
    rcases rep_some hr with ⟨e1, rfl⟩ | ⟨c, v, cp, e1, rfl, h3, -⟩
    · exact ⟨by simp [test, e1], by simp [call, e1]⟩
    · refine ⟨by simp [test, e1], ?_⟩
      have := all_alive.2 (h.held i c e1).2
      simp only [call, e1, Option.bind_eq_bind, Option.bind_some, if_pos this, h3]
      rfl

theorem reach_inv {P : Abs → Op → Prop} (hP : ∀ a op, P a op → Handled a op) {s : St} {a : Abs}
    (h : Reach P s a) : Inv s a ∧ ((∀ a op, P a op → Frugal a op) → NoLeak s) := by
  induction h with
  | init => exact ⟨init_inv, fun _ id h => absurd h (Nat.not_lt_zero _)⟩
  | call op s s' a a' th _ hp hs hst ih =>
    obtain ⟨s'', h1, h2, h3⟩ := step_spec ih.1 (hP _ _ hp) hs
    rw [hst] at h1
    cases h1
    exact ⟨h2, fun hf => h3 (ih.2 hf) (hf _ _ hp)⟩

end Verif.Function
