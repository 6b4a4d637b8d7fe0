import Verif.Model.Bht
import Mathlib.Data.List.Nodup
import Mathlib.Data.List.Perm.Subperm

/-!
Helper lemmas for `Bht`: the invariant of concurrent insertion.
-/
namespace Verif.Bht

variable {K : Type} {c : Cfg K} {task : Nat → Task K} {s s' : St K} {t : Nat}

/-- The slot a call has won. -/
def Pc.slot : Pc → Option Nat
  | .count a => some a
  | .setIdx a _ => some a
  | .setKey a _ => some a
  | .finish a _ => some a
  | .near a _ => some a
  | .ret a _ => some a
  | _ => none

/-- The index a call has. -/
def Pc.no : Pc → Option Nat
  | .setIdx _ n => some n
  | .setKey _ n => some n
  | .finish _ n => some n
  | .near _ n => some n
  | .ret _ n => some n
  | _ => none

/-- Slot and index, once the index is in the table. -/
def Pc.written : Pc → Option (Nat × Nat)
  | .setKey a n => some (a, n)
  | .finish a n => some (a, n)
  | .near a n => some (a, n)
  | .ret a n => some (a, n)
  | _ => none

/-- The index, once the key is in the list of keys. -/
def Pc.listed : Pc → Option Nat
  | .finish _ n => some n
  | .near _ n => some n
  | .ret _ n => some n
  | _ => none

/-- The probe positions before slot `l` of bucket `i` hold keys other than `k`. -/
def Clear (c : Cfg K) (keys : Nat → K) (k : K) (i l : Nat) : Prop :=
  ∀ i' l', (i' < i ∧ l' + 1 < c.B ∨ i' = i ∧ l' < l) →
    keys (c.offset i' k + l') ≠ c.hole ∧ keys (c.offset i' k + l') ≠ k

structure Inv (c : Cfg K) (task : Nat → Task K) (s : St K) : Prop where
  scan : ∀ t i l, s.pc t = .scan i l ∨ s.pc t = .cas i l →
    c.nb ≠ 0 ∧ i < 3 ∧ l < c.B ∧ Clear c s.keys (task t).key i l
  cas : ∀ t i l, s.pc t = .cas i l → l ≤ c.threshold ∧ (task t).key ≠ c.hole
  placed : ∀ a, s.keys a ≠ c.hole → c.nb ≠ 0 ∧ ∃ i l, i < 3 ∧ l ≤ c.threshold ∧ a = c.offset i (s.keys a) + l ∧
    Clear c s.keys (s.keys a) i l
  own : ∀ t a, (s.pc t).slot = some a → s.keys a = (task t).key ∧ (task t).key ≠ c.hole
  owner : ∀ a, s.keys a ≠ c.hole → ∃ t, (s.pc t).slot = some a
  uniq : ∀ t t' a, (s.pc t).slot = some a → (s.pc t').slot = some a → t = t'
  present : ∀ t, s.pc t = .present → (task t).key = c.hole ∨ ∃ a, s.keys a = (task t).key
  idx : ∀ t a n, (s.pc t).written = some (a, n) → s.indices a = n

theorem upd_same {α : Type} (f : Nat → α) (i : Nat) (x : α) : upd f i x i = x := by simp [upd]

theorem upd_ne {α : Type} (f : Nat → α) {i j : Nat} (x : α) (h : j ≠ i) : upd f i x j = f j := by simp [upd, h]

theorem offset_lt (hn : c.nb ≠ 0) {l : Nat} (hl : l < c.B) (i : Nat) (k : K) : c.offset i k + l < c.size := by
  unfold Cfg.offset Cfg.size
  have h1 : c.hf i k % c.nb < c.nb := Nat.mod_lt _ (by omega)
  calc c.hf i k % c.nb * c.B + l < c.hf i k % c.nb * c.B + c.B := by omega
    _ = (c.hf i k % c.nb + 1) * c.B := by rw [Nat.add_mul, Nat.one_mul]
    _ ≤ c.nb * c.B := Nat.mul_le_mul_right _ h1

/-- A step that changes neither keys nor indices. -/
theorem Inv.goto {p : Pc} (h : Inv c task s) (hk : s'.keys = s.keys) (hi : s'.indices = s.indices)
    (hp : s'.pc = upd s.pc t p) (hs : p.slot = (s.pc t).slot)
    (h1 : ∀ i l, p = .scan i l ∨ p = .cas i l → c.nb ≠ 0 ∧ i < 3 ∧ l < c.B ∧ Clear c s.keys (task t).key i l)
    (h2 : ∀ i l, p = .cas i l → l ≤ c.threshold ∧ (task t).key ≠ c.hole)
    (h3 : p = .present → (task t).key = c.hole ∨ ∃ a, s.keys a = (task t).key)
    (h4 : ∀ a n, p.written = some (a, n) → (s.pc t).written = some (a, n)) : Inv c task s' := by
  have hslot : ∀ u, (s'.pc u).slot = (s.pc u).slot := by
    intro u
    rw [hp]
    by_cases e : u = t
    · subst e; rw [upd_same, hs]
    · rw [upd_ne _ _ e]
  constructor
  · intro u i l hu
    rw [hk]
    rw [hp] at hu
    by_cases e : u = t
    · subst e; rw [upd_same] at hu; exact h1 i l hu
    · rw [upd_ne _ _ e] at hu; exact h.scan u i l hu
  · intro u i l hu
    rw [hp] at hu
    by_cases e : u = t
    · subst e; rw [upd_same] at hu; exact h2 i l hu
    · rw [upd_ne _ _ e] at hu; exact h.cas u i l hu
  · rw [hk]; exact h.placed
  · intro u a hu
    rw [hslot] at hu
    rw [hk]; exact h.own u a hu
  · intro a ha
    rw [hk] at ha
    obtain ⟨u, hu⟩ := h.owner a ha
    exact ⟨u, by rw [hslot, hu]⟩
  · intro u u' a
    rw [hslot, hslot]; exact h.uniq u u' a
  · intro u hu
    rw [hk]
    rw [hp] at hu
    by_cases e : u = t
    · subst e; rw [upd_same] at hu; exact h3 hu
    · rw [upd_ne _ _ e] at hu; exact h.present u hu
  · intro u a n hu
    rw [hi]
    rw [hp] at hu
    by_cases e : u = t
    · subst e; rw [upd_same] at hu; exact h.idx u a n (h4 a n hu)
    · rw [upd_ne _ _ e] at hu; exact h.idx u a n hu

theorem Clear.upd {keys : Nat → K} {k k' : K} {i l a : Nat} (h : Clear c keys k i l) (ha : keys a = c.hole) :
    Clear c (upd keys a k') k i l := by
  intro i' l' hp
  have := h i' l' hp
  have hne : c.offset i' k + l' ≠ a := by
    intro e
    rw [e] at this
    exact this.1 ha
  rw [upd_ne _ _ hne]
  exact this

/-- Winning a slot. -/
theorem Inv.won {i l : Nat} (h : Inv c task s) (hpc : s.pc t = .cas i l)
    (ha : s.keys (c.offset i (task t).key + l) = c.hole) :
    Inv c task { s with keys := upd s.keys (c.offset i (task t).key + l) (task t).key,
                        pc := upd s.pc t (.count (c.offset i (task t).key + l)) } := by
  obtain ⟨hn, hi, hl, hc⟩ := h.scan t i l (Or.inr hpc)
  obtain ⟨hl', hh⟩ := h.cas t i l hpc
  generalize ea : c.offset i (task t).key + l = a at ha ⊢
  have hfree : ∀ u, (s.pc u).slot ≠ some a := by
    intro u hu
    have := h.own u a hu
    exact this.2 (this.1 ▸ ha)
  constructor
  · intro u i' l' hu
    by_cases e : u = t
    · subst e; simp [upd_same] at hu
    · simp only [upd_ne _ _ e] at hu
      obtain ⟨x1, x2, x3, x4⟩ := h.scan u i' l' hu
      exact ⟨x1, x2, x3, x4.upd ha⟩
  · intro u i' l' hu
    by_cases e : u = t
    · subst e; simp [upd_same] at hu
    · simp only [upd_ne _ _ e] at hu
      exact h.cas u i' l' hu
  · intro b hb
    refine ⟨hn, ?_⟩
    by_cases e : b = a
    · subst e
      simp only [upd_same]
      exact ⟨i, l, hi, hl', ea.symm, hc.upd ha⟩
    · simp only [upd_ne _ _ e] at hb ⊢
      obtain ⟨_, i', l', x1, x2, x3, x4⟩ := h.placed b hb
      exact ⟨i', l', x1, x2, x3, x4.upd ha⟩
  · intro u b hu
    by_cases e : u = t
    · subst e
      simp only [upd_same, Pc.slot, Option.some.injEq] at hu
      subst hu
      exact ⟨upd_same _ _ _, hh⟩
    · simp only [upd_ne _ _ e] at hu
      have := h.own u b hu
      refine ⟨?_, this.2⟩
      have hne : b ≠ a := fun e => hfree u (e ▸ hu)
      simp only [upd_ne _ _ hne]
      exact this.1
  · intro b hb
    by_cases e : b = a
    · subst e
      exact ⟨t, by simp [upd_same, Pc.slot]⟩
    · simp only [upd_ne _ _ e] at hb
      obtain ⟨u, hu⟩ := h.owner b hb
      refine ⟨u, ?_⟩
      have hne : u ≠ t := by
        rintro rfl
        rw [hpc] at hu
        simp [Pc.slot] at hu
      simp only [upd_ne _ _ hne]
      exact hu
  · intro u u' b hu hu'
    by_cases e : u = t
    · by_cases e' : u' = t
      · rw [e, e']
      · subst e
        simp only [upd_same, upd_ne _ _ e', Pc.slot, Option.some.injEq] at hu hu'
        subst hu
        exact absurd hu' (hfree u')
    · by_cases e' : u' = t
      · subst e'
        simp only [upd_same, upd_ne _ _ e, Pc.slot, Option.some.injEq] at hu hu'
        subst hu'
        exact absurd hu (hfree u)
      · simp only [upd_ne _ _ e, upd_ne _ _ e'] at hu hu'
        exact h.uniq u u' b hu hu'
  · intro u hu
    by_cases e : u = t
    · subst e; simp [upd_same] at hu
    · simp only [upd_ne _ _ e] at hu
      rcases h.present u hu with hx | ⟨b, hb⟩
      · exact Or.inl hx
      · by_cases hx : (task u).key = c.hole
        · exact Or.inl hx
        · refine Or.inr ⟨b, ?_⟩
          have hne : b ≠ a := by
            rintro rfl
            exact hx (hb ▸ ha)
          simp only [upd_ne _ _ hne]
          exact hb
  · intro u b n hu
    by_cases e : u = t
    · subst e; simp [upd_same, Pc.written] at hu
    · simp only [upd_ne _ _ e] at hu
      exact h.idx u b n hu

/-- Writing the index. -/
theorem Inv.setIdx {a n : Nat} (h : Inv c task s) (hpc : s.pc t = .setIdx a n) :
    Inv c task { s with indices := upd s.indices a n, pc := upd s.pc t (.setKey a n) } := by
  have hslot : ∀ u, (upd s.pc t (.setKey a n) u).slot = (s.pc u).slot := by
    intro u
    by_cases e : u = t
    · subst e; rw [upd_same, hpc]; rfl
    · rw [upd_ne _ _ e]
  constructor
  · intro u i l hu
    by_cases e : u = t
    · subst e; simp [upd_same] at hu
    · simp only [upd_ne _ _ e] at hu; exact h.scan u i l hu
  · intro u i l hu
    by_cases e : u = t
    · subst e; simp [upd_same] at hu
    · simp only [upd_ne _ _ e] at hu; exact h.cas u i l hu
  · exact h.placed
  · intro u b hu
    simp only [hslot] at hu
    exact h.own u b hu
  · intro b hb
    obtain ⟨u, hu⟩ := h.owner b hb
    exact ⟨u, by simpa only [hslot] using hu⟩
  · intro u u' b hu hu'
    simp only [hslot] at hu hu'
    exact h.uniq u u' b hu hu'
  · intro u hu
    by_cases e : u = t
    · subst e; simp [upd_same] at hu
    · simp only [upd_ne _ _ e] at hu; exact h.present u hu
  · intro u b m hu
    by_cases e : u = t
    · subst e
      simp only [upd_same, Pc.written, Option.some.injEq, Prod.mk.injEq] at hu
      obtain ⟨rfl, rfl⟩ := hu
      exact upd_same _ _ _
    · simp only [upd_ne _ _ e] at hu
      have hs : (s.pc u).slot = some b := by
        revert hu
        cases s.pc u <;> simp [Pc.written, Pc.slot] <;> intros <;> assumption
      have hne : b ≠ a := by
        rintro rfl
        exact e (h.uniq u t b hs (by rw [hpc]; rfl))
      simp only [upd_ne _ _ hne]
      exact h.idx u b m hu

theorem Inv.next {i : Nat} (h : Inv c task s) (hs : (s.pc t).slot = none) (hB : 1 ≤ c.B) (hn : c.nb ≠ 0)
    (hc : ∀ i' l', i' ≤ i → l' + 1 < c.B →
      s.keys (c.offset i' (task t).key + l') ≠ c.hole ∧ s.keys (c.offset i' (task t).key + l') ≠ (task t).key) :
    Inv c task (s.next t i) := by
  unfold St.next
  split
  · refine h.goto rfl rfl rfl (by rw [hs]; rfl) ?_ (by simp) (by simp) (by simp [Pc.written])
    intro i' l' e
    simp only [reduceCtorEq, or_false, Pc.scan.injEq] at e
    obtain ⟨rfl, rfl⟩ := e
    refine ⟨hn, by assumption, by omega, ?_⟩
    intro i' l' hp
    exact hc i' l' (by omega) (by omega)
  · exact h.goto rfl rfl rfl (by rw [hs]; rfl) (by simp) (by simp) (by simp) (by simp [Pc.written])

/-- The key of an occupied slot is in no other slot. -/
theorem Inv.inj (h : Inv c task s) (hB : 2 ≤ c.B) {a b : Nat} (ha : s.keys a ≠ c.hole) (e : s.keys a = s.keys b) :
    a = b := by
  obtain ⟨_, i, l, hi, hl, ea, hc⟩ := h.placed a ha
  obtain ⟨_, i', l', hi', hl', eb, hc'⟩ := h.placed b (e ▸ ha)
  rw [← e] at eb hc'
  unfold Cfg.threshold at hl hl'
  rcases Nat.lt_trichotomy i i' with x | x | x
  · exact absurd (ea ▸ rfl) (hc' i l (Or.inl ⟨x, by omega⟩)).2
  · subst x
    rcases Nat.lt_trichotomy l l' with y | y | y
    · exact absurd (ea ▸ rfl) (hc' i l (Or.inr ⟨rfl, y⟩)).2
    · subst y
      rw [ea, eb]
    · refine absurd ?_ (hc i l' (Or.inr ⟨rfl, y⟩)).2
      rw [← eb, e]
  · refine absurd ?_ (hc i' l' (Or.inl ⟨x, by omega⟩)).2
    rw [← eb, e]

theorem Inv.lt (h : Inv c task s) (hB : 2 ≤ c.B) {a : Nat} (ha : s.keys a ≠ c.hole) : a < c.size := by
  obtain ⟨hn, i, l, hi, hl, ea, hc⟩ := h.placed a ha
  rw [ea]
  exact offset_lt hn (by unfold Cfg.threshold at hl; omega) _ _

theorem Inv.slot_lt (h : Inv c task s) (hB : 2 ≤ c.B) {a : Nat} (hs : (s.pc t).slot = some a) : a < c.size := by
  have := h.own t a hs
  exact h.lt hB (this.1 ▸ this.2)

theorem inv_empty (cnt active indices) : Inv c task (c.empty cnt active indices) := by
  constructor <;> simp [Cfg.empty, Pc.slot, Pc.written]

variable [DecidableEq K]

theorem Inv.step (h : Inv c task s) (hB : 2 ≤ c.B) {stale : Bool} (hs : step c task s t stale = some s') :
    Inv c task s' := by
  unfold Bht.step at hs
  cases hpc : s.pc t with
  | start =>
    rw [hpc] at hs
    simp only [Option.some.injEq] at hs
    subst hs
    split
    · exact h.goto rfl rfl rfl (by rw [hpc]; rfl) (by simp) (by simp) (by simp) (by simp [Pc.written])
    · next hn =>
      refine h.goto rfl rfl rfl (by rw [hpc]; rfl) ?_ (by simp) (by simp) (by simp [Pc.written])
      intro i l e
      simp only [reduceCtorEq, or_false, Pc.scan.injEq] at e
      obtain ⟨rfl, rfl⟩ := e
      refine ⟨hn, by omega, by omega, ?_⟩
      intro i' l' hp
      omega
  | scan i l =>
    rw [hpc] at hs
    obtain ⟨hn, hi, hl, hc⟩ := h.scan t i l (Or.inl hpc)
    simp only [if_neg (Nat.not_le.2 (offset_lt hn hl i _)), Option.some.injEq] at hs
    subst hs
    by_cases e1 : (if stale = true then c.hole else s.keys (c.offset i (task t).key + l)) = (task t).key
    · rw [if_pos e1]
      refine h.goto rfl rfl rfl (by rw [hpc]; rfl) (by simp) (by simp) (fun _ => ?_) (by simp [Pc.written])
      cases stale
      · exact Or.inr ⟨_, by simpa using e1⟩
      · exact Or.inl (by simpa using e1.symm)
    · rw [if_neg e1]
      by_cases e2 : (if stale = true then c.hole else s.keys (c.offset i (task t).key + l)) = c.hole
      · rw [if_pos e2]
        split
        · next hlt =>
          refine h.goto rfl rfl rfl (by rw [hpc]; rfl) ?_ ?_ (by simp) (by simp [Pc.written])
          · intro i' l' e
            simp only [reduceCtorEq, false_or, Pc.cas.injEq] at e
            obtain ⟨rfl, rfl⟩ := e
            exact ⟨hn, hi, hl, hc⟩
          · intro i' l' e
            simp only [Pc.cas.injEq] at e
            obtain ⟨rfl, rfl⟩ := e
            exact ⟨hlt, fun e => e1 (e2.trans e.symm)⟩
        · next hlt =>
          refine h.next (by rw [hpc]; rfl) (by omega) hn ?_
          intro i' l' x1 x2
          unfold Cfg.threshold at hlt
          refine hc i' l' ?_
          omega
      · rw [if_neg e2]
        have hst : stale = false := by
          cases stale
          · rfl
          · simp at e2
        subst hst
        simp only [Bool.false_eq_true, if_false] at e1 e2
        have hc' : Clear c s.keys (task t).key i (l + 1) := by
          intro i' l' hp
          by_cases e : i' = i ∧ l' = l
          · obtain ⟨rfl, rfl⟩ := e
            exact ⟨e2, e1⟩
          · refine hc i' l' ?_
            omega
        split
        · refine h.next (by rw [hpc]; rfl) (by omega) hn ?_
          intro i' l' x1 x2
          refine hc' i' l' ?_
          omega
        · refine h.goto rfl rfl rfl (by rw [hpc]; rfl) ?_ (by simp) (by simp) (by simp [Pc.written])
          intro i' l' e
          simp only [reduceCtorEq, or_false, Pc.scan.injEq] at e
          obtain ⟨rfl, rfl⟩ := e
          exact ⟨hn, hi, by omega, hc'⟩
  | cas i l =>
    rw [hpc] at hs
    obtain ⟨hn, hi, hl, hc⟩ := h.scan t i l (Or.inr hpc)
    simp only [if_neg (Nat.not_le.2 (offset_lt hn hl i _))] at hs
    split at hs
    · next ha =>
      cases hs
      exact h.won hpc ha
    · cases hs
      refine h.goto rfl rfl rfl (by rw [hpc]; rfl) ?_ (by simp) (by simp) (by simp [Pc.written])
      intro i' l' e
      simp only [reduceCtorEq, or_false, Pc.scan.injEq] at e
      obtain ⟨rfl, rfl⟩ := e
      exact ⟨hn, hi, hl, hc⟩
  | count a =>
    rw [hpc] at hs
    cases hg : (task t).given with
    | none =>
      rw [hg] at hs
      cases hs
      exact h.goto rfl rfl rfl (by rw [hpc]; rfl) (by simp) (by simp) (by simp) (by simp [Pc.written])
    | some n =>
      rw [hg] at hs
      cases hs
      exact h.goto rfl rfl rfl (by rw [hpc]; rfl) (by simp) (by simp) (by simp) (by simp [Pc.written])
  | setIdx a n =>
    rw [hpc] at hs
    simp only at hs
    split at hs
    · cases hs
    · cases hs
      exact h.setIdx hpc
  | setKey a n =>
    rw [hpc] at hs
    simp only at hs
    split at hs
    · split at hs
      · cases hs
      · cases hs
        exact h.goto rfl rfl rfl (by rw [hpc]; rfl) (by simp) (by simp) (by simp) (by simp [Pc.written, hpc])
    · cases hs
      exact h.goto rfl rfl rfl (by rw [hpc]; rfl) (by simp) (by simp) (by simp) (by simp [Pc.written, hpc])
  | finish a n =>
    rw [hpc] at hs
    simp only [Option.some.injEq] at hs
    subst hs
    split
    · exact h.goto rfl rfl rfl (by rw [hpc]; rfl) (by simp) (by simp) (by simp) (by simp [Pc.written, hpc])
    · exact h.goto rfl rfl rfl (by rw [hpc]; rfl) (by simp) (by simp) (by simp) (by simp [Pc.written, hpc])
  | present => rw [hpc] at hs; cases hs; exact h
  | failed => rw [hpc] at hs; cases hs; exact h
  | near a n => rw [hpc] at hs; cases hs; exact h
  | ret a n => rw [hpc] at hs; cases hs; exact h

/-! ## Numbering -/

/-- Every call takes a fresh index and lists its key. -/
def Fresh (task : Nat → Task K) : Prop := ∀ t, (task t).given = none ∧ (task t).enqueue = true

structure Num (task : Nat → Task K) (s : St K) : Prop where
  lt : ∀ t n, (s.pc t).no = some n → n < s.cnt
  inj : ∀ t t' n, (s.pc t).no = some n → (s.pc t').no = some n → t = t'
  onto : ∀ n < s.cnt, ∃ t, (s.pc t).no = some n
  act : ∀ t n, (s.pc t).listed = some n → s.active n = (task t).key

omit [DecidableEq K] in
theorem Num.goto {p : Pc} (h : Num task s) (hc : s'.cnt = s.cnt) (ha : s'.active = s.active)
    (hp : s'.pc = upd s.pc t p) (hn : p.no = (s.pc t).no)
    (hl : ∀ n, p.listed = some n → (s.pc t).listed = some n) : Num task s' := by
  have hno : ∀ u, (s'.pc u).no = (s.pc u).no := by
    intro u
    rw [hp]
    by_cases e : u = t
    · subst e; rw [upd_same, hn]
    · rw [upd_ne _ _ e]
  constructor
  · intro u n
    rw [hno, hc]; exact h.lt u n
  · intro u u' n
    rw [hno, hno]; exact h.inj u u' n
  · intro n
    rw [hc]
    intro hn
    obtain ⟨u, hu⟩ := h.onto n hn
    exact ⟨u, by rw [hno, hu]⟩
  · intro u n hu
    rw [ha]
    rw [hp] at hu
    by_cases e : u = t
    · subst e; rw [upd_same] at hu; exact h.act u n (hl n hu)
    · rw [upd_ne _ _ e] at hu; exact h.act u n hu

omit [DecidableEq K] in
theorem Num.count {a : Nat} (h : Num task s) (hpc : s.pc t = .count a) :
    Num task { s with cnt := s.cnt + 1, pc := upd s.pc t (.setIdx a s.cnt) } := by
  constructor
  · intro u n hu
    by_cases e : u = t
    · subst e
      simp only [upd_same, Pc.no, Option.some.injEq] at hu
      simp only
      omega
    · simp only [upd_ne _ _ e] at hu
      have := h.lt u n hu
      simp only
      omega
  · intro u u' n hu hu'
    by_cases e : u = t
    · by_cases e' : u' = t
      · rw [e, e']
      · subst e
        simp only [upd_same, upd_ne _ _ e', Pc.no, Option.some.injEq] at hu hu'
        have := h.lt u' n hu'
        omega
    · by_cases e' : u' = t
      · subst e'
        simp only [upd_same, upd_ne _ _ e, Pc.no, Option.some.injEq] at hu hu'
        have := h.lt u n hu
        omega
      · simp only [upd_ne _ _ e, upd_ne _ _ e'] at hu hu'
        exact h.inj u u' n hu hu'
  · intro n hn
    simp only at hn
    by_cases e : n = s.cnt
    · exact ⟨t, by simp [upd_same, Pc.no, e]⟩
    · obtain ⟨u, hu⟩ := h.onto n (by omega)
      refine ⟨u, ?_⟩
      have hne : u ≠ t := by
        rintro rfl
        rw [hpc] at hu
        simp [Pc.no] at hu
      simp only [upd_ne _ _ hne]
      exact hu
  · intro u n hu
    by_cases e : u = t
    · subst e; simp [upd_same, Pc.listed] at hu
    · simp only [upd_ne _ _ e] at hu
      exact h.act u n hu

omit [DecidableEq K] in
theorem Num.setKey {a n : Nat} (h : Num task s) (hpc : s.pc t = .setKey a n) :
    Num task { s with active := upd s.active n (task t).key, pc := upd s.pc t (.finish a n) } := by
  have hno : ∀ u, (upd s.pc t (.finish a n) u).no = (s.pc u).no := by
    intro u
    by_cases e : u = t
    · subst e; rw [upd_same, hpc]; rfl
    · rw [upd_ne _ _ e]
  constructor
  · intro u m hu
    simp only [hno] at hu
    exact h.lt u m hu
  · intro u u' m hu hu'
    simp only [hno] at hu hu'
    exact h.inj u u' m hu hu'
  · intro m hm
    obtain ⟨u, hu⟩ := h.onto m hm
    exact ⟨u, by simpa only [hno] using hu⟩
  · intro u m hu
    by_cases e : u = t
    · subst e
      simp only [upd_same, Pc.listed, Option.some.injEq] at hu
      subst hu
      exact upd_same _ _ _
    · simp only [upd_ne _ _ e] at hu
      have hs : (s.pc u).no = some m := by
        revert hu
        cases s.pc u <;> simp [Pc.listed, Pc.no]
      have hne : m ≠ n := by
        rintro rfl
        exact e (h.inj u t m hs (by rw [hpc]; rfl))
      simp only [upd_ne _ _ hne]
      exact h.act u m hu

theorem Num.step (h : Num task s) (hf : Fresh task) {stale : Bool} (hs : step c task s t stale = some s') :
    Num task s' := by
  have hnext : ∀ i, (s.pc t).no = none → Num task (s.next t i) := by
    intro i hn
    unfold St.next
    split
    · exact h.goto rfl rfl rfl (by rw [hn]; rfl) (by simp [Pc.listed])
    · exact h.goto rfl rfl rfl (by rw [hn]; rfl) (by simp [Pc.listed])
  unfold Bht.step at hs
  cases hpc : s.pc t with
  | start =>
    rw [hpc] at hs
    cases hs
    split
    · exact h.goto rfl rfl rfl (by rw [hpc]; rfl) (by simp [Pc.listed])
    · exact h.goto rfl rfl rfl (by rw [hpc]; rfl) (by simp [Pc.listed])
  | scan i l =>
    rw [hpc] at hs hnext
    simp only at hs
    split at hs
    · cases hs
    · cases hs
      generalize (if stale = true then c.hole else s.keys (c.offset i (task t).key + l)) = cur
      split
      · exact h.goto rfl rfl rfl (by rw [hpc]; rfl) (by simp [Pc.listed])
      · split
        · split
          · exact h.goto rfl rfl rfl (by rw [hpc]; rfl) (by simp [Pc.listed])
          · exact hnext i rfl
        · split
          · exact hnext i rfl
          · exact h.goto rfl rfl rfl (by rw [hpc]; rfl) (by simp [Pc.listed])
  | cas i l =>
    rw [hpc] at hs
    simp only at hs
    split at hs
    · cases hs
    · split at hs
      · cases hs
        exact h.goto rfl rfl rfl (by rw [hpc]; rfl) (by simp [Pc.listed])
      · cases hs
        exact h.goto rfl rfl rfl (by rw [hpc]; rfl) (by simp [Pc.listed])
  | count a =>
    rw [hpc] at hs
    simp only [(hf t).1] at hs
    cases hs
    exact h.count hpc
  | setIdx a n =>
    rw [hpc] at hs
    simp only at hs
    split at hs
    · cases hs
    · cases hs
      exact h.goto rfl rfl rfl (by rw [hpc]; rfl) (by simp [Pc.listed])
  | setKey a n =>
    rw [hpc] at hs
    simp only [(hf t).2, if_true] at hs
    split at hs
    · cases hs
    · cases hs
      exact h.setKey hpc
  | finish a n =>
    rw [hpc] at hs
    cases hs
    split
    · exact h.goto rfl rfl rfl (by rw [hpc]; rfl) (by simp [Pc.listed, hpc])
    · exact h.goto rfl rfl rfl (by rw [hpc]; rfl) (by simp [Pc.listed, hpc])
  | present => rw [hpc] at hs; cases hs; exact h
  | failed => rw [hpc] at hs; cases hs; exact h
  | near a n => rw [hpc] at hs; cases hs; exact h
  | ret a n => rw [hpc] at hs; cases hs; exact h

omit [DecidableEq K] in
theorem num_empty (active indices) : Num task (c.empty 0 active indices) := by
  constructor <;> simp [Cfg.empty, Pc.no, Pc.listed]

omit [DecidableEq K] in
/-- There are no more indices than slots. -/
theorem cnt_le (h : Inv c task s) (hN : Num task s) (hB : 2 ≤ c.B) : s.cnt ≤ c.size := by
  have hslot : ∀ n, n < s.cnt → ∃ t a, (s.pc t).no = some n ∧ (s.pc t).slot = some a := by
    intro n hn
    obtain ⟨t, ht⟩ := hN.onto n hn
    refine ⟨t, ?_⟩
    revert ht
    cases s.pc t <;> simp [Pc.no, Pc.slot]
  have hch : ∃ f : Nat → Nat, ∀ n, n < s.cnt → ∃ t, (s.pc t).no = some n ∧ (s.pc t).slot = some (f n) := by
    refine ⟨fun n => if hn : n < s.cnt then (hslot n hn).choose_spec.choose else 0, ?_⟩
    intro n hn
    simp only [hn, dif_pos]
    exact ⟨(hslot n hn).choose, (hslot n hn).choose_spec.choose_spec⟩
  obtain ⟨f, hf⟩ := hch
  have hnd : ((List.range s.cnt).map f).Nodup := by
    refine List.Nodup.map_on ?_ List.nodup_range
    intro x hx y hy e
    obtain ⟨t, h1, h2⟩ := hf x (List.mem_range.1 hx)
    obtain ⟨t', h1', h2'⟩ := hf y (List.mem_range.1 hy)
    rw [e] at h2
    have := h.uniq t t' _ h2 h2'
    subst this
    rw [h1] at h1'
    exact Option.some.inj h1'
  have hsub : (List.range s.cnt).map f ⊆ List.range c.size := by
    intro x hx
    obtain ⟨n, hn, rfl⟩ := List.mem_map.1 hx
    obtain ⟨t, h1, h2⟩ := hf n (List.mem_range.1 hn)
    exact List.mem_range.2 (h.slot_lt hB h2)
  have := (List.subperm_of_subset hnd hsub).length_le
  simpa using this

/-- Fresh insertion never leaves the arrays. -/
theorem step_defined (h : Inv c task s) (hB : 2 ≤ c.B) (hb : ∀ t n, (s.pc t).no = some n → (task t).enqueue = true →
    n < c.size) (t : Nat) (stale : Bool) : ∃ s', step c task s t stale = some s' := by
  unfold Bht.step
  cases hpc : s.pc t with
  | scan i l =>
    obtain ⟨hn, hi, hl, hc⟩ := h.scan t i l (Or.inl hpc)
    simp only [if_neg (Nat.not_le.2 (offset_lt hn hl i _)), Option.some.injEq, exists_eq']
  | cas i l =>
    obtain ⟨hn, hi, hl, hc⟩ := h.scan t i l (Or.inr hpc)
    simp only [if_neg (Nat.not_le.2 (offset_lt hn hl i _))]
    split <;> simp
  | count a =>
    simp only
    split <;> simp
  | setIdx a n =>
    have := h.slot_lt hB (t := t) (a := a) (by rw [hpc]; rfl)
    simp only [if_neg (Nat.not_le.2 this), Option.some.injEq, exists_eq']
  | setKey a n =>
    simp only
    split
    · next he =>
      have := hb t n (by rw [hpc]; rfl) he
      simp only [if_neg (Nat.not_le.2 this), Option.some.injEq, exists_eq']
    · simp
  | _ => simp

/-! ## Queries -/

theorem findIn_some {keys : Nat → K} {k : K} : ∀ {n a b : Nat}, findIn keys k n a = some b → keys b = k := by
  intro n
  induction n with
  | zero => intro a b h; simp [findIn] at h
  | succ n ih =>
    intro a b h
    unfold findIn at h
    split at h
    · cases h; assumption
    · exact ih h

theorem findIn_none {keys : Nat → K} {k : K} : ∀ {n a : Nat}, findIn keys k n a = none →
    ∀ l < n, keys (a + l) ≠ k := by
  intro n
  induction n with
  | zero => intro a _ l hl; omega
  | succ n ih =>
    intro a h l hl
    unfold findIn at h
    split at h
    · cases h
    · next e =>
      cases l with
      | zero => exact e
      | succ l =>
        have := ih h l (by omega)
        rwa [Nat.add_right_comm] at this

theorem slotOf_some {k : K} {a : Nat} (hq : slotOf c s k = some a) : s.keys a = k := by
  unfold slotOf at hq
  split at hq
  · cases hq
  · split at hq
    · next e => cases hq; exact findIn_some e
    · split at hq
      · next e => cases hq; exact findIn_some e
      · exact findIn_some hq

theorem slotOf_none (h : Inv c task s) (hB : 2 ≤ c.B) {k : K} (hk : k ≠ c.hole) (hq : slotOf c s k = none) (a : Nat) :
    s.keys a ≠ k := by
  intro e
  obtain ⟨hn, i, l, hi, hl, ea, hc⟩ := h.placed a (e ▸ hk)
  rw [e] at ea
  unfold slotOf at hq
  rw [if_neg hn] at hq
  unfold Cfg.threshold at hl
  split at hq
  · cases hq
  · next e0 =>
    split at hq
    · cases hq
    · next e1 =>
      have : i = 0 ∨ i = 1 ∨ i = 2 := by omega
      rcases this with rfl | rfl | rfl
      · exact findIn_none e0 l (by omega) (ea ▸ e)
      · exact findIn_none e1 l (by omega) (ea ▸ e)
      · exact findIn_none hq l (by omega) (ea ▸ e)

/-- `query` of an inserted key. -/
theorem query_of_slot (h : Inv c task s) (hB : 2 ≤ c.B) {a : Nat} (hk : s.keys a ≠ c.hole) :
    query c s (s.keys a) = some (s.indices a) := by
  unfold query
  cases hq : slotOf c s (s.keys a) with
  | none => exact absurd rfl (slotOf_none h hB hk hq a)
  | some b =>
    have := slotOf_some hq
    have := h.inj hB (a := b) (b := a) (this ▸ hk) this
    rw [this]
    rfl

theorem query_absent {k : K} (ha : ∀ a, s.keys a ≠ k) :
    query c s k = none := by
  unfold query
  cases hq : slotOf c s k with
  | none => rfl
  | some b => exact absurd (slotOf_some hq) (ha b)

end Verif.Bht
