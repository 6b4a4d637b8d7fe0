import Verif.Spec.ParkingLot
/-! Helper lemmas for the parking lot. -/
namespace Verif.ParkingLot

/-- The list contains at most two nodes, the waiter's first. -/
structure Inv (s : St) (n : Nat) (w : Option Waiter) : Prop where
  fresh : s.fresh = n
  waiting : s.waiting = (w.map (·.id)).toList
  shape : (s.head = none ∧ w = none) ∨
    (∃ a x, s.head = some a ∧ s.heap a = some x ∧ a < n ∧ x.next = none ∧
      (w = none ∨ w = some ⟨a, x.key, x.lot, x.data, x.signaled⟩)) ∨
    (∃ a x b y, s.head = some a ∧ s.heap a = some x ∧ a < n ∧ x.next = some b ∧ a ≠ b ∧ b < n ∧
      s.heap b = some y ∧ y.next = none ∧ x.signaled = false ∧ w = some ⟨a, x.key, x.lot, x.data, x.signaled⟩)
  count : s.head ≠ none → s.count ≠ 0

theorem upd_self {β : Type} (f : Nat → β) (i : Nat) (x : β) : upd f i x i = x := by simp [upd]
theorem upd_ne {β : Type} (f : Nat → β) {i j : Nat} (h : j ≠ i) (x : β) : upd f i x j = f j := by
  simp [upd, h]

theorem inv_shows {s : St} {n : Nat} {w : Option Waiter} (h : Inv s n w) : Shows s n w := by
  refine ⟨h.fresh, h.waiting, ?_⟩
  rintro v rfl
  have hw : v.id ∈ s.waiting := by rw [h.waiting]; simp
  have hn : ∃ x, s.heap v.id = some x ∧ x.signaled = v.signaled := by
    rcases h.shape with ⟨_, e⟩ | ⟨a, x, _, hx, _, _, e⟩ | ⟨a, x, _, _, _, hx, _, _, _, _, _, _, _, e⟩
    · cases e
    · rcases e with e | e
      · cases e
      · cases e; exact ⟨x, hx, rfl⟩
    · cases e; exact ⟨x, hx, rfl⟩
  obtain ⟨x, hx, hs⟩ := hn
  simp only [resume, if_pos hw, hx, Option.bind_eq_bind, Option.bind_some, hs]
  cases v.signaled <;> simp

/-- Erasing nothing from a list of one node. -/
theorem erase_none {s : St} {a : Nat} {x : Node} (hh : s.head = some a) (hx : s.heap a = some x)
    (hn : x.next = none) : erase none s = some s := by
  simp [erase, hh, hx, hn, eraseLoop]

/-- Erasing nothing from a list of two nodes. -/
theorem erase_none2 {s : St} {a b m : Nat} {x y : Node} (hh : s.head = some a) (hx : s.heap a = some x)
    (hn : x.next = some b) (hy : s.heap b = some y) (hyn : y.next = none) (hm : s.fresh = m + 2) :
    erase none s = some s := by
  simp [erase, hh, hx, hn, hm, eraseLoop, hy, hyn]

/-- Erasing the second of two nodes. -/
theorem erase_second {s : St} {a b : Nat} {x y : Node} (hh : s.head = some a) (hx : s.heap a = some x)
    (hn : x.next = some b) (hab : a ≠ b) (hy : s.heap b = some y) (hyn : y.next = none)
    (hw : b ∉ s.waiting) :
    erase (some b) s = some { s with
      heap := upd (upd s.heap a (some { x with next := none })) b none } := by
  have h1 : b ≠ a := fun e => hab e.symm
  simp [erase, hh, hx, hn, eraseLoop, hy, hyn, h1, free, hw, upd_ne]

theorem unpark_spec {s : St} {n : Nat} {w : Option Waiter} (h : Inv s n w) (key lot : Nat)
    {func : Nat → Control} (hf : ∀ d, func d ≠ .removeContinue) :
    ∃ s', unpark key lot func s = some s' ∧ Inv s' n (w.map fun w =>
        { w with signaled := w.signaled || (w.key == key && w.lot == lot && (func w.data).removes) }) := by
  unfold unpark
  rcases h.shape with ⟨hh, e⟩ | ⟨a, x, hh, hx, ha, hn, e⟩ |
      ⟨a, x, b, y, hh, hx, ha, hn, hab, hb, hy, hyn, hxs, e⟩
  · subst e
    refine ⟨s, ?_, by simpa using h⟩
    split
    · rfl
    · simp [unparkLoop, hh]
  · rw [if_neg (h.count (by rw [hh]; simp))]
    have hf1 : ∃ m, s.fresh = m + 1 := ⟨s.fresh - 1, by rw [h.fresh]; omega⟩
    obtain ⟨m, hm⟩ := hf1
    by_cases hk : x.key = key ∧ x.lot = lot
    · cases hr : (func x.data).removes with
      | true =>
        have hbr : (func x.data).breaks = true := by
          have := hf x.data
          revert hr this
          cases func x.data <;> simp [Control.removes, Control.breaks]
        refine ⟨{ s with heap := upd s.heap a (some { x with signaled := true }) }, ?_, ?_⟩
        · simp [unparkLoop, hh, hx, hk, hr, hbr, hn, erase_none hh hx hn, wake]
        · refine ⟨h.fresh, ?_, .inr (.inl ⟨a, _, hh, upd_self _ _ _, ha, hn, ?_⟩), h.count⟩
          · rw [show (St.mk s.fresh (upd s.heap a (some { x with signaled := true })) s.head s.count
              s.waiting).waiting = s.waiting from rfl, h.waiting]
            cases w <;> simp
          · rcases e with e | e
            · left; simp [e]
            · right; simp [e, hk, hr]
      | false =>
        refine ⟨s, ?_, ?_⟩
        · rw [hm]
          simp [unparkLoop, hh, hx, hk, hr, hn]
        · have : w.map (fun w => { w with
              signaled := w.signaled || (w.key == key && w.lot == lot && (func w.data).removes) }) = w := by
            rcases e with e | e <;> simp [e, hr]
          rw [this]
          exact h
    · refine ⟨s, ?_, ?_⟩
      · rw [hm]
        simp [unparkLoop, hh, hx, hk, hn]
      · have : w.map (fun w => { w with
            signaled := w.signaled || (w.key == key && w.lot == lot && (func w.data).removes) }) = w := by
          rcases e with e | e
          · simp [e]
          · have : (x.key == key && x.lot == lot) = false := by
              simp only [Bool.and_eq_false_imp, beq_iff_eq, beq_eq_false_iff_ne]
              exact fun h1 h2 => hk ⟨h1, h2⟩
            simp [e, this]
        rw [this]
        exact h
  · rw [if_neg (h.count (by rw [hh]; simp))]
    have hf1 : ∃ m, s.fresh = m + 2 := ⟨s.fresh - 2, by rw [h.fresh]; omega⟩
    obtain ⟨m, hm⟩ := hf1
    have hbw : b ∉ s.waiting := by
      rw [h.waiting, e]
      simp
      exact fun e => hab e.symm
    have hba : b ≠ a := fun e => hab e.symm
    by_cases hk : x.key = key ∧ x.lot = lot
    · cases hr : (func x.data).removes with
      | true =>
        have hbr : (func x.data).breaks = true := by
          have := hf x.data
          revert hr this
          cases func x.data <;> simp [Control.removes, Control.breaks]
        refine ⟨⟨s.fresh, upd (upd (upd s.heap a (some { x with next := none })) b none) a
            (some { x with next := none, signaled := true }), s.head, s.count, s.waiting⟩, ?_, ?_⟩
        · simp [unparkLoop, hh, hx, hk, hr, hbr, hn, erase_second hh hx hn hab hy hyn hbw, wake,
            upd_ne _ hab, upd_self]
        · refine ⟨h.fresh, ?_, .inr (.inl ⟨a, _, hh, upd_self _ _ _, ha, rfl, ?_⟩), h.count⟩
          · subst e
            exact h.waiting
          · right; simp [e, hk, hr]
      | false =>
        have hsame : w.map (fun w => { w with
            signaled := w.signaled || (w.key == key && w.lot == lot && (func w.data).removes) }) = w := by
          simp [e, hr]
        rw [hsame]
        cases hbr : (func x.data).breaks with
        | true =>
          refine ⟨s, ?_, h⟩
          simp [unparkLoop, hh, hx, hk, hr, hbr]
        | false =>
          -- the left-over node of an earlier waiter may be signalled again
          by_cases hk2 : y.key = key ∧ y.lot = lot
          · cases hr2 : (func y.data).removes with
            | true =>
              have hbr2 : (func y.data).breaks = true := by
                have := hf y.data
                revert hr2 this
                cases func y.data <;> simp [Control.removes, Control.breaks]
              refine ⟨{ s with heap := upd s.heap b (some { y with signaled := true }) }, ?_, ?_⟩
              · have h0 := erase_none2 hh hx hn hy hyn hm
                rw [hm]
                simp [unparkLoop, hh, hx, hk, hr, hbr, hn, hy, hk2, hr2, hbr2, hyn, h0, wake, hm]
              · exact ⟨h.fresh, h.waiting, .inr (.inr ⟨a, x, b, _, hh, by
                  rw [← hx]; exact upd_ne _ hab _, ha, hn, hab, hb, upd_self _ _ _, hyn, hxs, e⟩), h.count⟩
            | false =>
              refine ⟨s, ?_, h⟩
              rw [hm]
              simp [unparkLoop, hh, hx, hk, hr, hbr, hn, hy, hk2, hr2, hyn]
          · refine ⟨s, ?_, h⟩
            rw [hm]
            simp [unparkLoop, hh, hx, hk, hr, hbr, hn, hy, hk2, hyn]
    · have hsame : w.map (fun w => { w with
          signaled := w.signaled || (w.key == key && w.lot == lot && (func w.data).removes) }) = w := by
        have : (x.key == key && x.lot == lot) = false := by
          simp only [Bool.and_eq_false_imp, beq_iff_eq, beq_eq_false_iff_ne]
          exact fun h1 h2 => hk ⟨h1, h2⟩
        simp [e, this]
      rw [hsame]
      by_cases hk2 : y.key = key ∧ y.lot = lot
      · cases hr2 : (func y.data).removes with
        | true =>
          have hbr2 : (func y.data).breaks = true := by
            have := hf y.data
            revert hr2 this
            cases func y.data <;> simp [Control.removes, Control.breaks]
          refine ⟨{ s with heap := upd s.heap b (some { y with signaled := true }) }, ?_, ?_⟩
          · have h0 := erase_none2 hh hx hn hy hyn hm
            rw [hm]
            simp [unparkLoop, hh, hx, hk, hn, hy, hk2, hr2, hbr2, hyn, h0, wake, hm]
          · exact ⟨h.fresh, h.waiting, .inr (.inr ⟨a, x, b, _, hh, by
              rw [← hx]; exact upd_ne _ hab _, ha, hn, hab, hb, upd_self _ _ _, hyn, hxs, e⟩), h.count⟩
        | false =>
          refine ⟨s, ?_, h⟩
          rw [hm]
          simp [unparkLoop, hh, hx, hk, hn, hy, hk2, hr2, hyn]
      · refine ⟨s, ?_, h⟩
        rw [hm]
        simp [unparkLoop, hh, hx, hk, hn, hy, hk2, hyn]

theorem step_spec {s : St} {n n' : Nat} {w w' : Option Waiter} {op : Op} (h : Inv s n w)
    (he : Effect n w op n' w') : ∃ s', step s op = some s' ∧ Inv s' n' w' := by
  cases he with
  | skip => exact ⟨s, rfl, h⟩
  | unpark _ key lot func hf => exact unpark_spec h key lot hf
  | park key lot data =>
    refine ⟨_, rfl, ?_⟩
    rcases h.shape with ⟨hh, _⟩ | ⟨a, x, hh, hx, ha, hn, _⟩ | ⟨a, x, b, y, _, _, _, _, _, _, _, _, _, e⟩
    · refine ⟨by simp [h.fresh], by simp [h.waiting, h.fresh], .inr (.inl ?_), by simp⟩
      exact ⟨n, ⟨key, lot, data, false, none⟩, by simp [h.fresh], by simp [h.fresh, hh, upd_self],
        by omega, rfl, .inr rfl⟩
    · refine ⟨by simp [h.fresh], by simp [h.waiting, h.fresh], .inr (.inr ?_), by simp⟩
      refine ⟨n, ⟨key, lot, data, false, some a⟩, a, x, by simp [h.fresh], by simp [h.fresh, hh, upd_self],
        by omega, rfl, by omega, by omega, ?_, hn, rfl, rfl⟩
      rw [← hx]
      exact upd_ne _ (by rw [h.fresh]; omega) _
    · cases e
  | resume v hv =>
    have hw : s.waiting = [v.id] := by rw [h.waiting]; rfl
    obtain ⟨x, hx, hs⟩ : ∃ x, s.heap v.id = some x ∧ x.signaled = true := by
      rcases h.shape with ⟨_, e⟩ | ⟨a, x, _, hx, _, _, e⟩ | ⟨a, x, _, _, _, hx, _, _, _, _, _, _, _, e⟩
      · cases e
      · rcases e with e | e
        · cases e
        · cases e; exact ⟨x, hx, hv⟩
      · cases e; exact ⟨x, hx, hv⟩
    refine ⟨{ s with waiting := [] }, by simp [step, resume, hw, hx, hs], ?_⟩
    rcases h.shape with ⟨_, e⟩ | ⟨a, x, hh, hx, ha, hn, e⟩ | ⟨a, x, b, y, hh, hx, ha, hn, hab, hb, hy, hyn, hxs, e⟩
    · cases e
    · exact ⟨h.fresh, rfl, .inr (.inl ⟨a, x, hh, hx, ha, hn, .inl rfl⟩), h.count⟩
    · cases e
      rw [hxs] at hv
      cases hv

theorem reach_inv {s : St} {n : Nat} {w : Option Waiter} (h : Reach s n w) : Inv s n w := by
  induction h with
  | init => exact ⟨rfl, rfl, .inl ⟨rfl, rfl⟩, fun e => absurd rfl e⟩
  | call op s s' n n' w w' _ he hs ih =>
    obtain ⟨s'', h1, h2⟩ := step_spec ih he
    rw [hs] at h1
    cases h1
    exact h2

end Verif.ParkingLot
