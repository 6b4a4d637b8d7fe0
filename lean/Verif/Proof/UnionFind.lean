import Verif.Model.UnionFind

/-!
Helper lemmas for `UnionFind`.
-/
namespace Verif.UnionFind

/-! ## Roots of a forest in which parents are smaller -/

def Down (fa : Nat → Nat) : Prop := ∀ x, fa x ≤ x

/-- `f` parent steps. -/
def up (fa : Nat → Nat) : Nat → Nat → Nat
  | 0, x => x
  | f + 1, x => up fa f (fa x)

/-- The root above `x`. -/
def root (fa : Nat → Nat) (x : Nat) : Nat := up fa x x

theorem upd_same {α : Type} (f : Nat → α) (i : Nat) (x : α) : upd f i x i = x := by simp [upd]

theorem upd_ne {α : Type} (f : Nat → α) {i j : Nat} (x : α) (h : j ≠ i) : upd f i x j = f j := by simp [upd, h]

variable {fa : Nat → Nat}

theorem up_fixed {x : Nat} (h : fa x = x) : ∀ f, up fa f x = x := by
  intro f
  induction f with
  | zero => rfl
  | succ f ih => rw [up, h, ih]

theorem root_fixed {x : Nat} (h : fa x = x) : root fa x = x := up_fixed h x

theorem up_enough (hd : Down fa) : ∀ x f, x ≤ f → up fa f x = up fa x x := by
  intro x
  induction x using Nat.strongRecOn with
  | ind x ih =>
    intro f hf
    by_cases h : fa x = x
    · rw [up_fixed h, up_fixed h]
    · have hlt : fa x < x := Nat.lt_of_le_of_ne (hd x) h
      obtain ⟨f, rfl⟩ : ∃ f', f = f' + 1 := ⟨f - 1, by omega⟩
      obtain ⟨y, rfl⟩ : ∃ y, x = y + 1 := ⟨x - 1, by omega⟩
      rw [up, up, ih _ hlt f (by omega), ih _ hlt y (by omega)]

theorem root_fa (hd : Down fa) (x : Nat) : root fa (fa x) = root fa x := by
  by_cases h : fa x = x
  · rw [h]
  · have hlt : fa x < x := Nat.lt_of_le_of_ne (hd x) h
    obtain ⟨y, rfl⟩ : ∃ y, x = y + 1 := ⟨x - 1, by omega⟩
    unfold root
    conv => rhs; rw [up]
    exact (up_enough hd _ _ (by omega)).symm

theorem root_is_root (hd : Down fa) : ∀ x, fa (root fa x) = root fa x := by
  intro x
  induction x using Nat.strongRecOn with
  | ind x ih =>
    by_cases h : fa x = x
    · rw [root_fixed h, h]
    · rw [← root_fa hd x]
      exact ih _ (Nat.lt_of_le_of_ne (hd x) h)

theorem root_le (hd : Down fa) : ∀ x, root fa x ≤ x := by
  intro x
  induction x using Nat.strongRecOn with
  | ind x ih =>
    by_cases h : fa x = x
    · rw [root_fixed h]; exact Nat.le_refl _
    · rw [← root_fa hd x]
      exact Nat.le_trans (ih _ (Nat.lt_of_le_of_ne (hd x) h)) (hd x)

theorem down_upd (hd : Down fa) {p q : Nat} (hq : q < p) : Down (upd fa p q) := by
  intro x
  by_cases e : x = p
  · subst e; rw [upd_same]; omega
  · rw [upd_ne _ _ e]; exact hd x

/-- Below the changed cell nothing changes. -/
theorem root_below (hd : Down fa) {p q : Nat} (hq : q < p) : ∀ x, x < p → root (upd fa p q) x = root fa x := by
  intro x
  induction x using Nat.strongRecOn with
  | ind x ih =>
    intro hx
    have e : upd fa p q x = fa x := upd_ne _ _ (by omega)
    by_cases h : fa x = x
    · rw [root_fixed h, root_fixed (e.trans h)]
    · rw [← root_fa hd x, ← root_fa (down_upd hd hq) x, e]
      have := Nat.lt_of_le_of_ne (hd x) h
      exact ih _ this (by omega)

theorem root_at (hd : Down fa) {p q : Nat} (hq : q < p) : root (upd fa p q) p = root fa q := by
  rw [← root_fa (down_upd hd hq) p, upd_same, root_below hd hq q hq]

/-- Path halving keeps the roots. -/
theorem root_compress (hd : Down fa) {p q : Nat} (hq : q < p) (hr : root fa q = root fa p) (hp : fa p ≠ p) :
    ∀ x, root (upd fa p q) x = root fa x := by
  intro x
  induction x using Nat.strongRecOn with
  | ind x ih =>
    by_cases e : x = p
    · subst e; rw [root_at hd hq, hr]
    · have e' : upd fa p q x = fa x := upd_ne _ _ e
      by_cases h : fa x = x
      · rw [root_fixed h, root_fixed (e'.trans h)]
      · rw [← root_fa hd x, ← root_fa (down_upd hd hq) x, e']
        exact ih _ (Nat.lt_of_le_of_ne (hd x) h)

/-- Hooking a root below another vertex. -/
theorem root_link (hd : Down fa) {p q : Nat} (hq : q < p) (hp : fa p = p) :
    ∀ x, root (upd fa p q) x = if root fa x = p then root fa q else root fa x := by
  intro x
  induction x using Nat.strongRecOn with
  | ind x ih =>
    by_cases e : x = p
    · subst e; rw [root_at hd hq, root_fixed hp, if_pos rfl]
    · have e' : upd fa p q x = fa x := upd_ne _ _ e
      by_cases h : fa x = x
      · rw [root_fixed h, root_fixed (e'.trans h), if_neg e]
      · rw [← root_fa hd x, ← root_fa (down_upd hd hq) x, e']
        exact ih _ (Nat.lt_of_le_of_ne (hd x) h)

/-! ## The invariant -/

/-- Vertices joined by entries `(v, inds i)` with `inds i < v`. -/
inductive Linked (g : Graph) : Nat → Nat → Prop where
  | refl (x : Nat) : Linked g x x
  | edge {v i : Nat} : v < g.n → i ∈ g.row v → g.skip i = false → g.inds i < v → Linked g v (g.inds i)
  | symm {x y : Nat} : Linked g x y → Linked g y x
  | trans {x y z : Nat} : Linked g x y → Linked g y z → Linked g x z

/-- Same tree now. -/
def Same (s : St) (x y : Nat) : Prop := root s.fa x = root s.fa y

structure Good (g : Graph) (s : St) : Prop where
  nonempty : ∀ x, s.mem x ≠ []
  le : ∀ x, ∀ y ∈ s.mem x, y ≤ x
  low : ∀ x, ∀ y ∈ s.mem x, y < x → s.fa x < x
  same : ∀ x, ∀ y ∈ s.mem x, Same s y x
  linked : ∀ x, x < g.n → ∀ y ∈ s.mem x, Linked g x y

theorem fa_mem {s : St} {x : Nat} (h : s.mem x ≠ []) : s.fa x ∈ s.mem x := by
  unfold St.fa
  cases e : s.mem x with
  | nil => exact absurd e h
  | cons a l => simp

theorem read_mem {s : St} {x : Nat} (h : s.mem x ≠ []) (c : Nat) : s.read x c ∈ s.mem x := by
  unfold St.read
  cases e : (s.mem x)[c]? with
  | none => exact fa_mem h
  | some y => exact List.mem_of_getElem? e

theorem Good.down {g : Graph} {s : St} (h : Good g s) : Down s.fa := fun x => h.le x _ (fa_mem (h.nonempty x))

theorem fa_write (s : St) (p q : Nat) : (s.write p q).fa = upd s.fa p q := by
  funext x
  unfold St.write St.fa
  by_cases e : x = p
  · subst e; simp [upd_same]
  · simp [upd_ne _ _ e]

/-- What a step of one task leaves to the others. -/
structure Grow (s s' : St) : Prop where
  same : ∀ x y, Same s x y → Same s' x y
  low : ∀ x, s.fa x < x → s'.fa x < x

theorem Grow.refl (s : St) : Grow s s := ⟨fun _ _ h => h, fun _ h => h⟩

theorem Grow.goto (s : St) (v : Nat) (p : Pc) : Grow s (s.goto v p) := ⟨fun _ _ h => h, fun _ h => h⟩

variable {g : Graph} {s : St}

/-- A write of an ancestor, or a hook. -/
theorem Good.write (h : Good g s) {p q : Nat} (hq : q < p) (hl : p < g.n → Linked g p q)
    (hs : s.fa p < p ∧ Same s q p ∨ s.fa p = p) :
    Good g (s.write p q) ∧ Grow s (s.write p q) ∧ Same (s.write p q) p q := by
  have hd := h.down
  have hfa := fa_write s p q
  have hgrow : ∀ x y, Same s x y → Same (s.write p q) x y := by
    intro x y hxy
    unfold Same at hxy ⊢
    rw [hfa]
    rcases hs with ⟨hp, hr⟩ | hp
    · rw [root_compress hd hq hr (by omega), root_compress hd hq hr (by omega), hxy]
    · rw [root_link hd hq hp, root_link hd hq hp, hxy]
  have hlow : ∀ x, s.fa x < x → (s.write p q).fa x < x := by
    intro x hx
    rw [hfa]
    by_cases e : x = p
    · subst e; rw [upd_same]; exact hq
    · rw [upd_ne _ _ e]; exact hx
  have hpq : Same (s.write p q) p q := by
    unfold Same
    rw [hfa, root_at hd hq, root_below hd hq q hq]
  have mem : ∀ x y, y ∈ (s.write p q).mem x → (x = p ∧ y = q) ∨ y ∈ s.mem x := by
    intro x y hy
    unfold St.write at hy
    by_cases e : x = p
    · subst e
      simp only [upd_same, List.mem_cons] at hy
      rcases hy with hy | hy
      · exact Or.inl ⟨rfl, hy⟩
      · exact Or.inr hy
    · simp only [upd_ne _ _ e] at hy
      exact Or.inr hy
  refine ⟨⟨?_, ?_, ?_, ?_, ?_⟩, ⟨hgrow, hlow⟩, hpq⟩
  · intro x
    unfold St.write
    by_cases e : x = p
    · subst e; simp [upd_same]
    · simpa [upd_ne _ _ e] using h.nonempty x
  · intro x y hy
    rcases mem x y hy with ⟨rfl, rfl⟩ | hy
    · omega
    · exact h.le x y hy
  · intro x y hy hlt
    rcases mem x y hy with ⟨rfl, rfl⟩ | hy
    · rw [hfa, upd_same]; exact hq
    · exact hlow x (h.low x y hy hlt)
  · intro x y hy
    rcases mem x y hy with ⟨rfl, rfl⟩ | hy
    · exact hpq.symm
    · exact hgrow y x (h.same x y hy)
  · intro x hx y hy
    rcases mem x y hy with ⟨rfl, rfl⟩ | hy
    · exact hl hx
    · exact h.linked x hx y hy

/-- The vertex whose representative is sought. -/
def target (g : Graph) (v : Nat) : Option Nat → Nat
  | none => v
  | some i => g.inds i

/-- The entry being worked on. -/
def Entry (g : Graph) (v : Nat) : Option Nat → Prop
  | none => True
  | some i => g.ptrs v ≤ i ∧ i < g.ptrs (v + 1) ∧ g.skip i = false ∧ g.inds i < v

/-- Entries before `i` are joined. -/
def Upto (g : Graph) (s : St) (v i : Nat) : Prop :=
  ∀ j, g.ptrs v ≤ j → j < i → j < g.ptrs (v + 1) → g.skip j = false → g.inds j < v → Same s v (g.inds j)

/-- The local variable `vstat`, once set. -/
def Stat (g : Graph) (s : St) (v : Nat) (k : Option Nat) (vstat : Nat) : Prop :=
  match k with
  | none => True
  | some i => vstat ≤ v ∧ Same s v vstat ∧ Linked g v vstat ∧ Upto g s v i

def Ok (g : Graph) (s : St) (v : Nat) : Pc → Prop
  | .seek k vstat idx => Entry g v k ∧ Stat g s v k vstat ∧ idx = target g v k
  | .climb k vstat prev curr => Entry g v k ∧ Stat g s v k vstat ∧ curr < prev ∧ prev ≤ v ∧ s.fa prev < prev ∧
      Same s prev (target g v k) ∧ Same s curr (target g v k) ∧
      Linked g (target g v k) prev ∧ Linked g (target g v k) curr
  | .halve k vstat prev curr next => Entry g v k ∧ Stat g s v k vstat ∧ next < curr ∧ curr < prev ∧ prev ≤ v ∧
      s.fa prev < prev ∧ s.fa curr < curr ∧
      Same s prev (target g v k) ∧ Same s curr (target g v k) ∧ Same s next (target g v k) ∧
      Linked g (target g v k) prev ∧ Linked g (target g v k) curr ∧ Linked g (target g v k) next
  | .edge i vstat => g.ptrs v ≤ i ∧ vstat ≤ v ∧ Same s v vstat ∧ Linked g v vstat ∧ Upto g s v i
  | .hook i vstat ostat => Entry g v (some i) ∧ Stat g s v (some i) vstat ∧ ostat ≤ v ∧
      Same s (g.inds i) ostat ∧ Linked g (g.inds i) ostat
  | .done => Upto g s v (g.ptrs (v + 1))

theorem Stat.grow {s' : St} (hg : Grow s s') {v : Nat} {k : Option Nat} {vs : Nat} (h : Stat g s v k vs) :
    Stat g s' v k vs := by
  cases k with
  | none => trivial
  | some i =>
    obtain ⟨h1, h2, h3, h4⟩ := h
    exact ⟨h1, hg.same _ _ h2, h3, fun j a b c d e => hg.same _ _ (h4 j a b c d e)⟩

theorem Ok.grow {s' : St} (hg : Grow s s') {v : Nat} {p : Pc} (h : Ok g s v p) : Ok g s' v p := by
  cases p with
  | seek k vs idx => exact ⟨h.1, h.2.1.grow hg, h.2.2⟩
  | climb k vs prev curr =>
    obtain ⟨h1, h2, h3, h4, h5, h6, h7, h8⟩ := h
    exact ⟨h1, h2.grow hg, h3, h4, hg.low _ h5, hg.same _ _ h6, hg.same _ _ h7, h8⟩
  | halve k vs prev curr next =>
    obtain ⟨h1, h2, h3, h4, h5, h6, h7, h8, h9, h10, h11⟩ := h
    exact ⟨h1, h2.grow hg, h3, h4, h5, hg.low _ h6, hg.low _ h7, hg.same _ _ h8, hg.same _ _ h9, hg.same _ _ h10, h11⟩
  | edge i vs =>
    obtain ⟨h0, h1, h2, h3, h4⟩ := h
    exact ⟨h0, h1, hg.same _ _ h2, h3, fun j a b c d e => hg.same _ _ (h4 j a b c d e)⟩
  | hook i vs os =>
    obtain ⟨h1, h2, h3, h4, h5⟩ := h
    exact ⟨h1, h2.grow hg, h3, hg.same _ _ h4, h5⟩
  | done => exact fun j a b c d e => hg.same _ _ (h j a b c d e)

structure Inv (g : Graph) (s : St) : Prop where
  good : Good g s
  ok : ∀ v, v < g.n → Ok g s v (s.pc v)

theorem target_le {v : Nat} {k : Option Nat} (h : Entry g v k) : target g v k ≤ v := by
  cases k with
  | none => exact Nat.le_refl _
  | some i => exact Nat.le_of_lt h.2.2.2

theorem ok_found {v : Nat} {k : Option Nat} {vs curr : Nat} (he : Entry g v k) (hs : Stat g s v k vs)
    (hle : curr ≤ v) (hc : Same s curr (target g v k)) (hl : Linked g (target g v k) curr) :
    Ok g s v (found g v k vs curr) := by
  cases k with
  | none => exact ⟨Nat.le_refl _, hle, hc.symm, hl, fun j a b => by omega⟩
  | some i => exact ⟨he, hs, hle, hc.symm, hl⟩

theorem mem_row {v i : Nat} (h1 : g.ptrs v ≤ i) (h2 : i < g.ptrs (v + 1)) : i ∈ g.row v := by
  unfold Graph.row
  rw [List.mem_range'_1]
  omega

theorem Inv.goto (h : Inv g s) {v : Nat} {p : Pc} (hp : Ok g s v p) : Inv g (s.goto v p) := by
  refine ⟨⟨h.good.nonempty, h.good.le, h.good.low, h.good.same, h.good.linked⟩, ?_⟩
  intro u hu
  by_cases e : u = v
  · subst e
    show Ok g _ u (upd s.pc u p u)
    rw [upd_same]
    exact hp.grow (Grow.goto s u p)
  · show Ok g _ u (upd s.pc v p u)
    rw [upd_ne _ _ e]
    exact (h.ok u hu).grow (Grow.goto s v p)

theorem Inv.write (h : Inv g s) {x y v : Nat} {p : Pc} (hw : Good g (s.write x y)) (hg : Grow s (s.write x y))
    (hp : Ok g (s.write x y) v p) : Inv g ((s.write x y).goto v p) := by
  have : Inv g (s.write x y) := ⟨hw, fun u hu => (h.ok u hu).grow hg⟩
  exact this.goto hp

theorem Upto.succ {v i : Nat} (h : Upto g s v i)
    (hi : i < g.ptrs (v + 1) → g.skip i = false → g.inds i < v → Same s v (g.inds i)) : Upto g s v (i + 1) := by
  intro j h1 h2 h3 h4 h5
  by_cases e : j = i
  · subst e; exact hi h3 h4 h5
  · exact h j h1 (by omega) h3 h4 h5

theorem Inv.step (h : Inv g s) {v c : Nat} (hv : v < g.n) : ∃ s', step g s v c = some s' ∧ Inv g s' := by
  have hok := h.ok v hv
  have hG := h.good
  unfold UnionFind.step
  cases hpc : s.pc v with
  | seek k vs idx =>
    rw [hpc] at hok
    obtain ⟨h1, h2, h3⟩ := hok
    have hidx : idx ≤ v := h3 ▸ target_le h1
    simp only
    rw [if_neg (by omega)]
    refine ⟨_, rfl, ?_⟩
    have hr := read_mem (hG.nonempty idx) c
    have hle := hG.le _ _ hr
    split
    · next hne =>
      refine h.goto ⟨h1, h2, by omega, hidx, ?_, ?_, ?_, ?_, ?_⟩
      · exact hG.low _ _ hr (by omega)
      · rw [h3]; rfl
      · rw [← h3]; exact hG.same _ _ hr
      · rw [← h3]; exact .refl _
      · rw [← h3]; exact hG.linked _ (by omega) _ hr
    · next hne =>
      have e : s.read idx c = idx := Classical.byContradiction hne
      rw [e]
      exact h.goto (ok_found h1 h2 hidx (by rw [h3]; rfl) (by rw [← h3]; exact .refl _))
  | climb k vs prev curr =>
    rw [hpc] at hok
    obtain ⟨h1, h2, h3, h4, h5, h6, h7, h8, h9⟩ := hok
    simp only
    rw [if_neg (by omega)]
    refine ⟨_, rfl, ?_⟩
    have hr := read_mem (hG.nonempty curr) c
    split
    · next hlt =>
      refine h.goto ⟨h1, h2, hlt, h3, h4, h5, hG.low _ _ hr hlt, h6, h7, ?_, h8, h9, ?_⟩
      · exact (hG.same _ _ hr).trans h7
      · exact h9.trans (hG.linked _ (by omega) _ hr)
    · exact h.goto (ok_found h1 h2 (by omega) h7 h9)
  | halve k vs prev curr next =>
    rw [hpc] at hok
    obtain ⟨h1, h2, h3, h4, h5, h6, h7, h8, h9, h10, h11, h12, h13⟩ := hok
    simp only
    rw [if_neg (by omega)]
    refine ⟨_, rfl, ?_⟩
    obtain ⟨w1, w2, w3⟩ := hG.write (p := prev) (q := next) (by omega) (fun _ => h11.symm.trans h13)
      (Or.inl ⟨h6, Eq.trans h10 (Eq.symm h8)⟩)
    refine h.write w1 w2 ⟨h1, h2.grow w2, h3, by omega, w2.low _ h7, w2.same _ _ h9, w2.same _ _ h10, h12, h13⟩
  | edge i vs =>
    rw [hpc] at hok
    obtain ⟨h0, h1, h2, h3, h4⟩ := hok
    refine ⟨_, rfl, ?_⟩
    split
    · next hi =>
      split
      · next hsk =>
        refine h.goto ⟨by omega, h1, h2, h3, h4.succ fun _ e => ?_⟩
        rw [hsk] at e
        cases e
      · next hsk =>
        have hsk : g.skip i = false := by simpa using hsk
        split
        · next hlt => exact h.goto ⟨⟨h0, hi, hsk, hlt⟩, ⟨h1, h2, h3, h4⟩, rfl⟩
        · next hlt =>
          refine h.goto ⟨by omega, h1, h2, h3, h4.succ fun _ _ e => absurd e hlt⟩
    · next hi =>
      refine h.goto ?_
      intro j a b c d e
      exact h4 j a (by omega) c d e
  | hook i vs os =>
    rw [hpc] at hok
    obtain ⟨h1, h2, h3, h4, h5⟩ := hok
    obtain ⟨k1, k2, k3, k4⟩ := h2
    have hedge : Linked g v (g.inds i) := .edge hv (mem_row h1.1 h1.2.1) h1.2.2.1 h1.2.2.2
    simp only
    split
    · next e =>
      subst e
      refine ⟨_, rfl, h.goto ⟨by have := h1.1; omega, k1, k2, k3, k4.succ fun _ _ _ => k2.trans h4.symm⟩⟩
    · next hne =>
      split
      · next hlt =>
        rw [if_neg (by omega)]
        split
        · next hroot =>
          obtain ⟨w1, w2, w3⟩ := hG.write (p := os) (q := vs) hlt
            (fun _ => h5.symm.trans (hedge.symm.trans k3)) (Or.inr hroot)
          refine ⟨_, rfl, h.write w1 w2 ⟨by have := h1.1; omega, k1, w2.same _ _ k2, k3, ?_⟩⟩
          refine Upto.succ (fun j a b c d e => w2.same _ _ (k4 j a b c d e)) fun _ _ _ => ?_
          exact (w2.same _ _ k2).trans (w3.symm.trans (w2.same _ _ h4).symm)
        · next hroot =>
          have hm := fa_mem (hG.nonempty os)
          refine ⟨_, rfl, h.goto ⟨h1, ⟨k1, k2, k3, k4⟩, ?_, ?_, ?_⟩⟩
          · have := hG.le _ _ hm; omega
          · exact h4.trans (hG.same _ _ hm).symm
          · exact h5.trans (hG.linked _ (by omega) _ hm)
      · next hlt =>
        have hlt : os < vs := by omega
        rw [if_neg (by omega)]
        split
        · next hroot =>
          obtain ⟨w1, w2, w3⟩ := hG.write (p := vs) (q := os) hlt
            (fun _ => k3.symm.trans (hedge.trans h5)) (Or.inr hroot)
          refine ⟨_, rfl, h.write w1 w2 ⟨by have := h1.1; omega, k1, w2.same _ _ k2, k3, ?_⟩⟩
          refine Upto.succ (fun j a b c d e => w2.same _ _ (k4 j a b c d e)) fun _ _ _ => ?_
          exact (w2.same _ _ k2).trans (w3.trans (w2.same _ _ h4).symm)
        · next hroot =>
          have hm := fa_mem (hG.nonempty vs)
          refine ⟨_, rfl, h.goto ⟨h1, ⟨?_, ?_, ?_, k4⟩, h3, h4, h5⟩⟩
          · have := hG.le _ _ hm; omega
          · exact k2.trans (hG.same _ _ hm).symm
          · exact k3.trans (hG.linked _ (by omega) _ hm)
  | done => exact ⟨_, rfl, h⟩

theorem firstLower_le (v : Nat) : ∀ (l : List Nat) (m : Nat), firstLower g v l m ≤ m := by
  intro l
  induction l with
  | nil => intro m; exact Nat.le_refl _
  | cons i l ih =>
    intro m
    unfold firstLower
    split
    · split
      · exact ih m
      · refine Nat.le_trans (ih _) ?_
        split <;> omega
    · exact Nat.le_refl _

theorem firstLower_from (v : Nat) : ∀ (l : List Nat), (∀ i ∈ l, i ∈ g.row v) →
    firstLower g v l v = v ∨ ∃ i ∈ g.row v, g.skip i = false ∧ g.inds i < v ∧ firstLower g v l v = g.inds i := by
  intro l
  induction l with
  | nil => intro _; exact Or.inl rfl
  | cons i l ih =>
    intro hl
    have ih := ih fun j hj => hl j (List.mem_cons_of_mem _ hj)
    unfold firstLower
    rw [if_pos rfl]
    split
    · exact ih
    · next hsk =>
      split
      · exact ih
      · next hge =>
        by_cases e : g.inds i = v
        · rw [e]; exact ih
        · refine Or.inr ⟨i, hl i List.mem_cons_self, by simpa using hsk, by omega, ?_⟩
          cases l with
          | nil => rfl
          | cons j l => unfold firstLower; rw [if_neg e]

theorem inv_start (g : Graph) : Inv g (start g) := by
  have hfa : ∀ x, (start g).fa x = firstLower g x (g.row x) x := fun x => rfl
  have hd : Down (start g).fa := fun x => by rw [hfa]; exact firstLower_le x _ _
  refine ⟨⟨?_, ?_, ?_, ?_, ?_⟩, ?_⟩
  · intro x; simp [start]
  · intro x y hy
    simp only [start, List.mem_singleton] at hy
    subst hy
    exact firstLower_le x _ _
  · intro x y hy hlt
    simp only [start, List.mem_singleton] at hy
    subst hy
    rw [hfa]; exact hlt
  · intro x y hy
    simp only [start, List.mem_singleton] at hy
    subst hy
    exact root_fa hd x
  · intro x hx y hy
    simp only [start, List.mem_singleton] at hy
    subst hy
    rcases firstLower_from (g := g) x (g.row x) (fun i h => h) with e | ⟨i, h1, h2, h3, e⟩
    · rw [e]; exact .refl _
    · rw [e]; exact .edge hx h1 h2 h3
  · intro v hv
    exact ⟨trivial, trivial, rfl⟩

end Verif.UnionFind
