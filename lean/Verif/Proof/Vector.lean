import Verif.Spec.Vector
/-! Helper lemmas for `Vector`: ownership invariant of the heap. -/
namespace Verif.Vector

variable {α : Type}

@[simp] theorem upd_same {β : Type} (f : Nat → β) (i : Nat) (x : β) : upd f i x i = x := by simp [upd]

theorem upd_ne {β : Type} (f : Nat → β) (i j : Nat) (x : β) (h : j ≠ i) : upd f i x j = f j := by
  simp [upd, h]

theorem upd_upd {β : Type} (f : Nat → β) (i : Nat) (x y : β) : upd (upd f i x) i y = upd f i y := by
  funext j; unfold upd; split <;> rfl

theorem upd_self {β : Type} (f : Nat → β) (i : Nat) : upd f i (f i) = f := by
  funext j; unfold upd; split <;> simp_all

theorem upd_comm {β : Type} (f : Nat → β) (i j : Nat) (x y : β) (h : i ≠ j) :
    upd (upd f i x) j y = upd (upd f j y) i x := by
  funext k; unfold upd; split <;> split <;> simp_all

/-- The cells hold every specified value of the list. -/
def Holds (cells l : List (Option α)) : Prop :=
  ∀ (k : Nat) (x : α), l[k]? = some (some x) → cells[k]? = some (some x)

/-- What is known about one living object. -/
def Owned (s : St α) (v : Vec) (l : List (Option α)) : Prop :=
  ∃ cells, s.heap v.base = some cells ∧ cells.length = v.cap ∧ v.size ≤ v.cap ∧ l.length = v.size ∧
    Holds cells l

structure Inv (s : St α) (a : Abs α) : Prop where
  own : ∀ i v, s.obj i = some v → ∃ l, a i = some l ∧ Owned s v l
  dead : ∀ i, s.obj i = none → a i = none
  inj : ∀ i j v w, s.obj i = some v → s.obj j = some w → v.base = w.base → i = j
  fresh : ∀ b, s.next ≤ b → s.heap b = none
  noleak : ∀ b cells, s.heap b = some cells → cells ≠ [] → ∃ i v, s.obj i = some v ∧ v.base = b

theorem Inv.base_lt {s : St α} {a : Abs α} (h : Inv s a) {i : Nat} {v : Vec} (hv : s.obj i = some v) :
    v.base < s.next := by
  obtain ⟨l, _, cells, hc, _⟩ := h.own i v hv
  refine Nat.lt_of_not_le fun hle => ?_
  rw [h.fresh _ hle] at hc
  exact absurd hc (by simp)

theorem Inv.alive {s : St α} {a : Abs α} (h : Inv s a) {i : Nat} {l : List (Option α)}
    (hl : a i = some l) : ∃ v, s.obj i = some v ∧ Owned s v l := by
  cases hv : s.obj i with
  | none => rw [h.dead i hv] at hl; exact absurd hl (by simp)
  | some v =>
    obtain ⟨l', h1, h2⟩ := h.own i v hv
    rw [hl] at h1
    cases h1
    exact ⟨v, rfl, h2⟩

theorem Inv.notAlive {s : St α} {a : Abs α} (h : Inv s a) {i : Nat} (hl : a i = none) :
    s.obj i = none := by
  cases hv : s.obj i with
  | none => rfl
  | some v =>
    obtain ⟨l', h1, h2⟩ := h.own i v hv
    rw [hl] at h1
    exact absurd h1 (by simp)

theorem inv_init : Inv (init : St α) (fun _ => none) :=
  ⟨by simp [init], by simp [init], by simp [init], by simp [init], by simp [init]⟩

/-- Changing the own block and size of one object. -/
theorem inv_inplace {s : St α} {a : Abs α} (h : Inv s a) {i : Nat} {v : Vec} (hv : s.obj i = some v)
    {cells l' : List (Option α)} {n : Nat} (hc : cells.length = v.cap) (hn : n ≤ v.cap)
    (hl : l'.length = n) (hh : Holds cells l') :
    Inv { s with heap := upd s.heap v.base (some cells), obj := upd s.obj i (some { v with size := n }) }
      (upd a i (some l')) := by
  refine ⟨?_, ?_, ?_, ?_, ?_⟩
  · intro j w hw
    dsimp only at hw
    by_cases hj : j = i
    · subst hj
      rw [upd_same] at hw
      cases hw
      exact ⟨l', upd_same .., cells, upd_same .., hc, hn, hl, hh⟩
    · rw [upd_ne _ _ _ _ hj] at hw
      obtain ⟨l, h1, c, h2, h3⟩ := h.own j w hw
      refine ⟨l, by rw [upd_ne _ _ _ _ hj]; exact h1, c, ?_, h3⟩
      dsimp only
      rw [upd_ne]
      · exact h2
      · exact fun he => hj (h.inj _ _ _ _ hw hv he)
  · intro j hw
    dsimp only at hw
    by_cases hj : j = i
    · subst hj; rw [upd_same] at hw; exact absurd hw (by simp)
    · rw [upd_ne _ _ _ _ hj] at hw ⊢
      exact h.dead j hw
  · intro j k w u hw hu he
    dsimp only at hw hu
    have key : ∀ j w, upd s.obj i (some { v with size := n }) j = some w →
        ∃ w', s.obj j = some w' ∧ w'.base = w.base := by
      intro j w hw
      by_cases hj : j = i
      · subst hj; rw [upd_same] at hw; cases hw; exact ⟨v, hv, rfl⟩
      · rw [upd_ne _ _ _ _ hj] at hw; exact ⟨w, hw, rfl⟩
    obtain ⟨w', h1, h2⟩ := key j w hw
    obtain ⟨u', h3, h4⟩ := key k u hu
    exact h.inj _ _ _ _ h1 h3 (by omega)
  · intro b hb
    dsimp only at hb ⊢
    have := h.base_lt hv
    rw [upd_ne _ _ _ _ (by omega)]
    exact h.fresh b hb
  · intro b c hc' hne
    dsimp only at hc'
    by_cases hb : b = v.base
    · exact ⟨i, { v with size := n }, upd_same .., hb.symm⟩
    · rw [upd_ne _ _ _ _ hb] at hc'
      obtain ⟨j, w, h1, h2⟩ := h.noleak b c hc' hne
      have hj : j ≠ i := by
        rintro rfl
        rw [hv] at h1; cases h1; exact hb h2.symm
      exact ⟨j, w, by dsimp only; rw [upd_ne _ _ _ _ hj]; exact h1, h2⟩

/-- Object `i` (dead or alive before) gets a new block; its old block, if it has cells, is freed. -/
theorem inv_replace {s s' : St α} {a : Abs α} (h : Inv s a) {i : Nat} {v : Vec}
    {cells l' : List (Option α)} (ho : s'.obj = upd s.obj i (some v)) (hb : s.next ≤ v.base)
    (hcell : s'.heap v.base = some cells) (hc : cells.length = v.cap)
    (hn : v.size ≤ v.cap) (hl : l'.length = v.size) (hh : Holds cells l')
    (hkeep : ∀ j w, j ≠ i → s.obj j = some w → s'.heap w.base = s.heap w.base)
    (hold : ∀ w, s.obj i = some w → w.cap ≠ 0 → s'.heap w.base = none)
    (hother : ∀ b, b ≠ v.base → ∀ c, s'.heap b = some c → c ≠ [] → s.heap b = some c)
    (hfresh : ∀ b, s'.next ≤ b → s'.heap b = none) :
    Inv s' (upd a i (some l')) := by
  refine ⟨?_, ?_, ?_, hfresh, ?_⟩
  · intro j w hw
    rw [ho] at hw
    by_cases hj : j = i
    · subst hj
      rw [upd_same] at hw
      cases hw
      exact ⟨l', upd_same .., cells, hcell, hc, hn, hl, hh⟩
    · rw [upd_ne _ _ _ _ hj] at hw
      obtain ⟨l, h1, c, h2, h3⟩ := h.own j w hw
      exact ⟨l, by rw [upd_ne _ _ _ _ hj]; exact h1, c, (hkeep j w hj hw).trans h2, h3⟩
  · intro j hw
    rw [ho] at hw
    by_cases hj : j = i
    · subst hj; rw [upd_same] at hw; exact absurd hw (by simp)
    · rw [upd_ne _ _ _ _ hj] at hw ⊢
      exact h.dead j hw
  · intro j k w u hw hu he
    rw [ho] at hw hu
    by_cases hj : j = i <;> by_cases hk : k = i
    · omega
    · subst hj
      rw [upd_same] at hw
      rw [upd_ne _ _ _ _ hk] at hu
      cases hw
      have := h.base_lt hu
      omega
    · subst hk
      rw [upd_same] at hu
      rw [upd_ne _ _ _ _ hj] at hw
      cases hu
      have := h.base_lt hw
      omega
    · rw [upd_ne _ _ _ _ hj] at hw
      rw [upd_ne _ _ _ _ hk] at hu
      exact h.inj _ _ _ _ hw hu he
  · intro b c hc' hne
    by_cases hbv : b = v.base
    · exact ⟨i, v, by rw [ho, upd_same], hbv.symm⟩
    · obtain ⟨j, w, h1, h2⟩ := h.noleak b c (hother b hbv c hc' hne) hne
      have hj : j ≠ i := by
        rintro rfl
        have hcap : w.cap ≠ 0 := by
          obtain ⟨l, _, c2, h3, h4, _⟩ := h.own j w h1
          have h5 := hother b hbv c hc' hne
          rw [← h2] at h5
          rw [h5] at h3
          cases h3
          intro h0
          exact hne (List.length_eq_zero_iff.1 (by omega))
        have := hold w h1 hcap
        rw [h2, hc'] at this
        exact absurd this (by simp)
      exact ⟨j, w, by rw [ho, upd_ne _ _ _ _ hj]; exact h1, h2⟩

theorem inv_swap {s : St α} {a : Abs α} (h : Inv s a) {i j : Nat} {v w : Vec}
    {l m : List (Option α)} (hv : s.obj i = some v) (hw : s.obj j = some w) (hl : a i = some l)
    (hm : a j = some m) :
    Inv { s with obj := upd (upd s.obj i (some w)) j (some v) } (upd (upd a i (some m)) j (some l)) := by
  have key : ∀ k u, upd (upd s.obj i (some w)) j (some v) k = some u →
      ∃ k', s.obj k' = some u ∧ upd (upd a i (some m)) j (some l) k = a k' ∧
        (k = j → k' = i) ∧ (k ≠ j → k = i → k' = j) ∧ (k ≠ j → k ≠ i → k' = k) := by
    intro k u hu
    by_cases hkj : k = j
    · subst hkj
      rw [upd_same] at hu
      cases hu
      exact ⟨i, hv, by rw [upd_same, hl], fun _ => rfl, fun h => absurd rfl h, fun h => absurd rfl h⟩
    · rw [upd_ne _ _ _ _ hkj] at hu ⊢
      by_cases hki : k = i
      · subst hki
        rw [upd_same] at hu
        cases hu
        exact ⟨j, hw, by rw [upd_same, hm], fun h => absurd h hkj, fun _ _ => rfl,
          fun _ h => absurd rfl h⟩
      · rw [upd_ne _ _ _ _ hki] at hu ⊢
        exact ⟨k, hu, rfl, fun h => absurd h hkj, fun _ h => absurd h hki, fun _ _ => rfl⟩
  refine ⟨?_, ?_, ?_, h.fresh, ?_⟩
  · intro k u hu
    obtain ⟨k', h1, h2, _⟩ := key k u hu
    obtain ⟨l', h3, h4⟩ := h.own k' u h1
    exact ⟨l', h2.trans h3, h4⟩
  · intro k hk
    dsimp only at hk
    by_cases hkj : k = j
    · subst hkj; rw [upd_same] at hk; exact absurd hk (by simp)
    · rw [upd_ne _ _ _ _ hkj] at hk ⊢
      by_cases hki : k = i
      · subst hki; rw [upd_same] at hk; exact absurd hk (by simp)
      · rw [upd_ne _ _ _ _ hki] at hk ⊢
        exact h.dead k hk
  · intro k1 k2 u1 u2 h1 h2 he
    obtain ⟨c1, d1, _, e1⟩ := key k1 u1 h1
    obtain ⟨c2, d2, _, e2⟩ := key k2 u2 h2
    have := h.inj _ _ _ _ d1 d2 he
    omega
  · intro b c hb hne
    obtain ⟨k, u, h1, h2⟩ := h.noleak b c hb hne
    by_cases hki : k = i
    · subst hki
      rw [hv] at h1; cases h1
      exact ⟨j, v, upd_same .., h2⟩
    · by_cases hkj : k = j
      · subst hkj
        rw [hw] at h1; cases h1
        by_cases hik : i = k
        · exact absurd hik.symm hki
        · exact ⟨i, w, by dsimp only; rw [upd_ne _ _ _ _ hik, upd_same], h2⟩
      · exact ⟨k, u, by dsimp only; rw [upd_ne _ _ _ _ hkj, upd_ne _ _ _ _ hki]; exact h1, h2⟩

/-- Result of the destructor. -/
theorem destroy_eq {s : St α} {v : Vec} {cells : List (Option α)} (hc : s.heap v.base = some cells) :
    destroy v s = some { s with heap := if v.cap > 0 then upd s.heap v.base none else s.heap } := by
  unfold destroy
  split
  · rw [hc]; rfl
  · rfl

theorem inv_dtor {s : St α} {a : Abs α} (h : Inv s a) {i : Nat} {v : Vec} (hv : s.obj i = some v) :
    ∃ s', dtor i s = some s' ∧ Inv s' (upd a i none) ∧ s'.next = s.next ∧ s'.obj = upd s.obj i none ∧
      s'.heap = if v.cap > 0 then upd s.heap v.base none else s.heap := by
  obtain ⟨l, hl, cells, hc, hcap, _⟩ := h.own i v hv
  have hd : dtor i s = some { s with
      heap := if v.cap > 0 then upd s.heap v.base none else s.heap, obj := upd s.obj i none } := by
    unfold dtor
    rw [hv]
    exact destroy_eq (s := { s with obj := upd s.obj i none }) hc
  refine ⟨_, hd, ⟨?_, ?_, ?_, ?_, ?_⟩, rfl, rfl, rfl⟩
  · intro j w hw
    dsimp only at hw
    by_cases hj : j = i
    · subst hj; rw [upd_same] at hw; exact absurd hw (by simp)
    · rw [upd_ne _ _ _ _ hj] at hw ⊢
      obtain ⟨l, h1, c, h2, h3⟩ := h.own j w hw
      refine ⟨l, h1, c, ?_, h3⟩
      dsimp only
      split
      · rw [upd_ne]
        · exact h2
        · exact fun he => hj (h.inj _ _ _ _ hw hv he)
      · exact h2
  · intro j hw
    dsimp only at hw
    by_cases hj : j = i
    · subst hj; rw [upd_same]
    · rw [upd_ne _ _ _ _ hj] at hw ⊢
      exact h.dead j hw
  · intro j k w u hw hu he
    dsimp only at hw hu
    by_cases hj : j = i
    · subst hj; rw [upd_same] at hw; exact absurd hw (by simp)
    by_cases hk : k = i
    · subst hk; rw [upd_same] at hu; exact absurd hu (by simp)
    rw [upd_ne _ _ _ _ hj] at hw
    rw [upd_ne _ _ _ _ hk] at hu
    exact h.inj _ _ _ _ hw hu he
  · intro b hb
    dsimp only at hb ⊢
    have := h.fresh b hb
    split
    · unfold upd; split <;> simp [this]
    · exact this
  · intro b c hb hne
    dsimp only at hb
    have hbb : s.heap b = some c ∧ (b = v.base → v.cap = 0) := by
      split at hb
      · rename_i hp
        unfold upd at hb
        split at hb
        · exact absurd hb (by simp)
        · rename_i hx
          exact ⟨hb, fun hy => absurd hy hx⟩
      · exact ⟨hb, fun _ => by omega⟩
    obtain ⟨j, w, h1, h2⟩ := h.noleak b c hbb.1 hne
    refine ⟨j, w, ?_, h2⟩
    have hj : j ≠ i := by
      rintro rfl
      rw [hv] at h1; cases h1
      have h0 := hbb.2 h2.symm
      rw [h2, hbb.1] at hc
      cases hc
      exact hne (List.length_eq_zero_iff.1 (by omega))
    dsimp only
    rw [upd_ne _ _ _ _ hj]
    exact h1

end Verif.Vector
