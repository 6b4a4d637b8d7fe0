import Verif.Proof.Poisson
import Mathlib.Data.List.GetD

/-! Helper lemmas for the sampling loop. -/
namespace Verif.Poisson

/-- The samples are registered in the grid. -/
structure Reg (c : Cfg) (g : Grid) (samples : List P) : Prop where
  ok : g.OK
  dims : g.dims = [(cellNumbers c).1, (cellNumbers c).2]
  cell : ∀ (a : ℕ) s, samples[a]? = some s → InGrid c s ∧ g.read [(toIndex c s (side c)).1, (toIndex c s (side c)).2] = some (a : ℤ)
  back : ∀ i j : ℤ, (0 ≤ i ∧ i < (cellNumbers c).1) ∧ 0 ≤ j ∧ j < (cellNumbers c).2 →
    ∃ v, g.read [i, j] = some v ∧ (v = -1 ∨ ∃ (a : ℕ) (s : P), v = a ∧ samples[a]? = some s ∧ toIndex c s (side c) = (i, j))

noncomputable def look0 (c : Cfg) (g : Grid) (j : C) : ℤ × ℝ := if c.periodic then wrap j.1 (g.domain 0) c.lo.1 c.hi.1 else (j.1, 0)
noncomputable def look1 (c : Cfg) (g : Grid) (j : C) : ℤ × ℝ := if c.periodic then wrap j.2 (g.domain 1) c.lo.2 c.hi.2 else (j.2, 0)

theorem search_spec (c : Cfg) (p : P) (g : Grid) (samples : List P) (js : List C)
    (h : ∀ j ∈ js, ∃ v, g.read [(look0 c g j).1, (look1 c g j).1] = some v ∧ (v = -1 ∨ ∃ (a : ℕ) (s : P), v = a ∧ samples[a]? = some s)) :
    ∃ b, search c p g samples js = some b ∧ (b = true ↔ ∀ j ∈ js, ∀ (a : ℕ) (s : P), g.read [(look0 c g j).1, (look1 c g j).1] = some (a : ℤ) → samples[a]? = some s →
      c.minDistance * c.minDistance ≤ nsq (p.1 - (s.1 + (look0 c g j).2), p.2 - (s.2 + (look1 c g j).2))) := by
  induction js with
  | nil => exact ⟨true, rfl, by simp⟩
  | cons j js ih =>
    obtain ⟨b, hb, hbi⟩ := ih fun j hj => h j (List.mem_cons_of_mem _ hj)
    obtain ⟨v, hv, hc⟩ := h j List.mem_cons_self
    have hs : search c p g samples (j :: js) = match g.read [(look0 c g j).1, (look1 c g j).1] with
      | none => none
      | some v =>
        if v = -1 then search c p g samples js
        else if v < 0 then none
        else
          match samples[v.toNat]? with
          | none => none
          | some s => if nsq (p.1 - (s.1 + (look0 c g j).2), p.2 - (s.2 + (look1 c g j).2)) < c.minDistance * c.minDistance then some false else search c p g samples js := rfl
    rw [hs, hv]
    simp only
    clear hs
    rcases hc with rfl | ⟨a, s, rfl, hs⟩
    · rw [if_pos rfl]
      refine ⟨b, hb, hbi.trans ⟨fun H k hk a s hr => ?_, fun H k hk => H k (List.mem_cons_of_mem _ hk)⟩⟩
      rcases List.mem_cons.1 hk with rfl | hk
      · rw [hv] at hr; have := Option.some.inj hr; omega
      · exact H k hk a s hr
    · rw [if_neg (by omega), if_neg (by omega), Int.toNat_natCast, hs]
      simp only
      by_cases hlt : nsq (p.1 - (s.1 + (look0 c g j).2), p.2 - (s.2 + (look1 c g j).2)) < c.minDistance * c.minDistance
      · rw [if_pos hlt]
        refine ⟨false, rfl, by simp, fun H => ?_⟩
        exact absurd (H j List.mem_cons_self a s hv hs) (not_le.2 hlt)
      · rw [if_neg hlt]
        refine ⟨b, hb, hbi.trans ⟨fun H k hk a' s' hr hs' => ?_, fun H k hk => H k (List.mem_cons_of_mem _ hk)⟩⟩
        rcases List.mem_cons.1 hk with rfl | hk
        · rw [hv] at hr
          have e : a = a' := by have := Option.some.inj hr; omega
          subst e
          rw [hs] at hs'
          obtain rfl := Option.some.inj hs'
          exact not_lt.1 hlt
        · exact H k hk a' s' hr hs'

theorem domain0 {c : Cfg} {g : Grid} (h : g.dims = [(cellNumbers c).1, (cellNumbers c).2]) : g.domain 0 = (cellNumbers c).1 := by
  rw [Grid.domain, h]; rfl

theorem domain1 {c : Cfg} {g : Grid} (h : g.dims = [(cellNumbers c).1, (cellNumbers c).2]) : g.domain 1 = (cellNumbers c).2 := by
  rw [Grid.domain, h]; rfl

/-- The bounds of the window of a cell. -/
def InWindow (c : Cfg) (i j : C) : Prop :=
  ((i.1 - 2 ≤ j.1 ∧ j.1 < i.1 + 3) ∧ i.2 - 2 ≤ j.2 ∧ j.2 < i.2 + 3) ∧
    (c.periodic = false → (0 ≤ j.1 ∧ j.1 < (cellNumbers c).1) ∧ 0 ≤ j.2 ∧ j.2 < (cellNumbers c).2)

theorem look_plain {c : Cfg} {g : Grid} (hp : c.periodic = false) (j : C) : look0 c g j = (j.1, 0) ∧ look1 c g j = (j.2, 0) := by
  simp [look0, look1, hp]

theorem look_periodic {c : Cfg} {g : Grid} (G : Good c) (hd : g.dims = [(cellNumbers c).1, (cellNumbers c).2]) (hp : c.periodic = true) {i j : C}
    (hi : (0 ≤ i.1 ∧ i.1 < (cellNumbers c).1) ∧ 0 ≤ i.2 ∧ i.2 < (cellNumbers c).2) (hj : InWindow c i j) :
    look0 c g j = (j.1 % (cellNumbers c).1, ((j.1 / (cellNumbers c).1 : ℤ) : ℝ) * (c.hi.1 - c.lo.1)) ∧
    look1 c g j = (j.2 % (cellNumbers c).2, ((j.2 / (cellNumbers c).2 : ℤ) : ℝ) * (c.hi.2 - c.lo.2)) := by
  have hw := G.wide hp
  obtain ⟨⟨h1, h2⟩, -⟩ := hj
  unfold look0 look1
  rw [if_pos hp, if_pos hp, domain0 hd, domain1 hd, wrap_eq hw.1 (by omega) (by omega), wrap_eq hw.2 (by omega) (by omega)]
  exact ⟨rfl, rfl⟩

theorem look_range {c : Cfg} {g : Grid} (G : Good c) (hd : g.dims = [(cellNumbers c).1, (cellNumbers c).2]) {i j : C}
    (hi : (0 ≤ i.1 ∧ i.1 < (cellNumbers c).1) ∧ 0 ≤ i.2 ∧ i.2 < (cellNumbers c).2) (hj : InWindow c i j) :
    (0 ≤ (look0 c g j).1 ∧ (look0 c g j).1 < (cellNumbers c).1) ∧ 0 ≤ (look1 c g j).1 ∧ (look1 c g j).1 < (cellNumbers c).2 := by
  cases hp : c.periodic with
  | false => rw [(look_plain hp j).1, (look_plain hp j).2]; exact hj.2 hp
  | true =>
    have hw := G.wide hp
    rw [(look_periodic G hd hp hi hj).1, (look_periodic G hd hp hi hj).2]
    exact ⟨⟨Int.emod_nonneg _ (by omega), Int.emod_lt_of_pos _ (by omega)⟩, Int.emod_nonneg _ (by omega), Int.emod_lt_of_pos _ (by omega)⟩

theorem window_mem {c : Cfg} {g : Grid} (hd : g.dims = [(cellNumbers c).1, (cellNumbers c).2]) (i j : C) :
    let l : C := (i.1 - 2, i.2 - 2)
    let u : C := (i.1 + 3, i.2 + 3)
    let l : C := if c.periodic then l else (max 0 l.1, max 0 l.2)
    let u : C := if c.periodic then u else (min (g.domain 0) u.1, min (g.domain 1) u.2)
    j ∈ ((loop l.1 u.1).flatMap fun x => (loop l.2 u.2).map fun y => (x, y)) ↔ InWindow c i j := by
  simp only
  rw [mem_window, domain0 hd, domain1 hd]
  cases hp : c.periodic with
  | true => simp [InWindow, hp]
  | false =>
    simp only [InWindow, hp, Bool.false_eq_true, if_false, forall_true_left]
    constructor
    · rintro ⟨⟨a, b⟩, d, e⟩; omega
    · rintro ⟨⟨⟨a, b⟩, d, e⟩, f⟩; omega

/-- A sample that is too close is seen from the window. -/
theorem close_seen {c : Cfg} {g : Grid} {samples : List P} (G : Good c) (R : Reg c g samples) {p : P} (hp : InGrid c p)
    (H : ∀ j, InWindow c (toIndex c p (side c)) j → ∀ (a : ℕ) (s : P), g.read [(look0 c g j).1, (look1 c g j).1] = some (a : ℤ) → samples[a]? = some s →
      c.minDistance * c.minDistance ≤ nsq (p.1 - (s.1 + (look0 c g j).2), p.2 - (s.2 + (look1 c g j).2)))
    {s : P} (hs : s ∈ samples) : c.Sep s p := by
  obtain ⟨a, ha⟩ := List.mem_iff_getElem?.1 hs
  obtain ⟨hg, hr⟩ := R.cell a s ha
  have hside := side_pos G.dist
  unfold Cfg.Sep
  cases hper : c.periodic with
  | false =>
    simp only [Bool.false_eq_true, if_false, Poisson.Sep]
    by_contra hlt
    obtain ⟨h1, h2⟩ := abs_lt_of_nsq G.dist (not_le.1 hlt)
    have f1 := floor_close (lo := c.lo.1) hside h1
    have f2 := floor_close (lo := c.lo.2) hside h2
    have hw : InWindow c (toIndex c p (side c)) (toIndex c s (side c)) := by
      refine ⟨?_, fun _ => hg⟩
      simp only [toIndex]
      omega
    have := H _ hw a s (by rw [(look_plain hper _).1, (look_plain hper _).2]; exact hr) ha
    rw [(look_plain hper _).1, (look_plain hper _).2] at this
    simp only [add_zero] at this
    exact hlt this
  | true =>
    simp only [if_true, SepPeriodic]
    intro k m
    by_contra hlt
    obtain ⟨h1, h2⟩ := abs_lt_of_nsq G.dist (not_le.1 hlt)
    have f1 := floor_close (lo := c.lo.1) hside h1
    have f2 := floor_close (lo := c.lo.2) hside h2
    rw [floor_shift hside (G.whole hper).1] at f1
    rw [floor_shift hside (G.whole hper).2] at f2
    have w := G.wide hper
    have hw : InWindow c (toIndex c p (side c)) ((toIndex c s (side c)).1 + k * (cellNumbers c).1, (toIndex c s (side c)).2 + m * (cellNumbers c).2) := by
      refine ⟨?_, fun e => by rw [hper] at e; cases e⟩
      simp only [toIndex]
      omega
    obtain ⟨e0, e1⟩ := look_periodic G R.dims hper hp hw
    have q0 : ((toIndex c s (side c)).1 + k * (cellNumbers c).1) % (cellNumbers c).1 = (toIndex c s (side c)).1 := by
      rw [Int.add_mul_emod_self_right, Int.emod_eq_of_lt hg.1.1 hg.1.2]
    have q1 : ((toIndex c s (side c)).2 + m * (cellNumbers c).2) % (cellNumbers c).2 = (toIndex c s (side c)).2 := by
      rw [Int.add_mul_emod_self_right, Int.emod_eq_of_lt hg.2.1 hg.2.2]
    have d0 : ((toIndex c s (side c)).1 + k * (cellNumbers c).1) / (cellNumbers c).1 = k := by
      rw [Int.add_mul_ediv_right _ _ (by omega), Int.ediv_eq_zero_of_lt hg.1.1 hg.1.2, zero_add]
    have d1 : ((toIndex c s (side c)).2 + m * (cellNumbers c).2) / (cellNumbers c).2 = m := by
      rw [Int.add_mul_ediv_right _ _ (by omega), Int.ediv_eq_zero_of_lt hg.2.1 hg.2.2, zero_add]
    simp only [q0, q1, d0, d1] at e0 e1
    have := H _ hw a s (by rw [e0, e1]; exact hr) ha
    rw [e0, e1] at this
    exact hlt this

/-- Two points of one cell are too close. -/
theorem same_cell {c : Cfg} (h : 0 < c.minDistance) {s p : P} (e : toIndex c s (side c) = toIndex c p (side c)) : ¬ c.Sep s p := by
  have hs := side_pos h
  have e1 := floor_same hs (Prod.ext_iff.1 e).1.symm
  have e2 := floor_same hs (Prod.ext_iff.1 e).2.symm
  have hlt : ¬ c.minDistance * c.minDistance ≤ nsq (p.1 - s.1, p.2 - s.2) := by
    rw [side_sq, nsq]; simp only; linarith
  unfold Cfg.Sep
  split
  · intro H
    have := H 0 0
    simp only [Int.cast_zero, zero_mul, add_zero] at this
    exact hlt this
  · exact hlt

/-- What the check decides. -/
theorem check_spec {c : Cfg} {g : Grid} {samples : List P} (G : Good c) (R : Reg c g samples) (p : P) :
    ∃ b, checkDistance c p (side c) g samples = some b ∧ (b = true ↔ InGrid c p ∧ ∀ s ∈ samples, c.Sep s p) := by
  unfold checkDistance
  simp only [domain0 R.dims, domain1 R.dims]
  by_cases hg : InGrid c p
  · rw [if_neg (by unfold InGrid at hg; omega)]
    obtain ⟨v, hv, hc⟩ := R.back _ _ hg
    rw [hv]
    simp only
    rcases hc with rfl | ⟨a, s, rfl, ha, hs⟩
    · rw [if_neg (by simp)]
      have hw := fun j => window_mem R.dims (toIndex c p (side c)) j
      simp only [domain0 R.dims, domain1 R.dims] at hw
      obtain ⟨b, hb, hbi⟩ := search_spec c p g samples _ (fun j hj => by
        obtain ⟨v, h1, h2⟩ := R.back _ _ (look_range G R.dims hg ((hw j).1 hj))
        refine ⟨v, h1, h2.imp id ?_⟩
        rintro ⟨a, s, e, f, -⟩
        exact ⟨a, s, e, f⟩)
      refine ⟨b, hb, hbi.trans ⟨fun H => ⟨hg, fun s hs => ?_⟩, fun H j hj a s hr hs => ?_⟩⟩
      · exact close_seen G R hg (fun j hj => H j ((hw j).2 hj)) hs
      · have hS := H.2 s (List.mem_iff_getElem?.2 ⟨a, hs⟩)
        have hj' := (hw j).1 hj
        unfold Cfg.Sep at hS
        cases hper : c.periodic with
        | false =>
          rw [hper] at hS
          rw [(look_plain hper j).1, (look_plain hper j).2]
          simpa [Poisson.Sep] using hS
        | true =>
          rw [hper] at hS
          rw [(look_periodic G R.dims hper hg hj').1, (look_periodic G R.dims hper hg hj').2]
          exact hS _ _
    · rw [if_pos (by omega)]
      refine ⟨false, rfl, by simp, fun H => ?_⟩
      exact absurd (H.2 s (List.mem_iff_getElem?.2 ⟨a, ha⟩)) (same_cell G.dist hs)
  · rw [if_pos (by unfold InGrid at hg; omega)]
    exact ⟨false, rfl, by simp [hg]⟩

/-- Registering a point. -/
theorem reg_add {c : Cfg} {g : Grid} {samples : List P} (R : Reg c g samples) {p : P} (hp : InGrid c p) (hne : ∀ s ∈ samples, toIndex c s (side c) ≠ toIndex c p (side c)) :
    ∃ g', g.write [(toIndex c p (side c)).1, (toIndex c p (side c)).2] samples.length = some g' ∧ Reg c g' (samples ++ [p]) := by
  have hr : InRange [(toIndex c p (side c)).1, (toIndex c p (side c)).2] g.dims := by rw [R.dims]; exact inRange2.2 hp
  obtain ⟨g', hw, hok, hd, hnew, hold⟩ := write_some R.ok hr samples.length
  refine ⟨g', hw, hok, hd.trans R.dims, fun a s ha => ?_, fun i j hij => ?_⟩
  · rcases Nat.lt_or_ge a samples.length with h | h
    · rw [List.getElem?_append_left h] at ha
      obtain ⟨h1, h2⟩ := R.cell a s ha
      refine ⟨h1, ?_⟩
      rw [hold _ (by rw [R.dims]; exact inRange2.2 h1), h2]
      intro e
      simp only [List.cons.injEq, and_true] at e
      exact hne s (List.mem_iff_getElem?.2 ⟨a, ha⟩) (Prod.ext e.1 e.2)
    · have hlt := (List.getElem?_eq_some_iff.1 ha).1
      simp only [List.length_append, List.length_cons, List.length_nil] at hlt
      have e : a = samples.length := by omega
      subst e
      rw [List.getElem?_concat_length] at ha
      obtain rfl := Option.some.inj ha
      exact ⟨hp, hnew⟩
  · by_cases e : (i, j) = toIndex c p (side c)
    · have e' : i = (toIndex c p (side c)).1 ∧ j = (toIndex c p (side c)).2 := by rw [← e]; exact ⟨rfl, rfl⟩
      refine ⟨samples.length, by rw [e'.1, e'.2]; exact hnew, Or.inr ⟨samples.length, p, rfl, by simp, e.symm⟩⟩
    · obtain ⟨v, hv, hc⟩ := R.back i j hij
      refine ⟨v, ?_, hc.imp id ?_⟩
      · rw [hold _ (by rw [R.dims]; exact inRange2.2 hij), hv]
        intro e'
        simp only [List.cons.injEq, and_true] at e'
        exact e (Prod.ext e'.1 e'.2)
      · rintro ⟨a, s, h1, h2, h3⟩
        exact ⟨a, s, h1, by rw [List.getElem?_append_left (List.getElem?_eq_some_iff.1 h2).1]; exact h2, h3⟩

/-- The samples are no more than the cells. -/
theorem reg_count {c : Cfg} {g : Grid} {samples : List P} (R : Reg c g samples) : (samples.length : ℤ) ≤ (cellNumbers c).1 * (cellNumbers c).2 := by
  have hl : (g.cells.length : ℤ) = (cellNumbers c).1 * (cellNumbers c).2 := by rw [R.ok.size, R.dims]; simp
  rw [← hl]
  have key : ∀ a : Fin samples.length, ∃ o : Fin g.cells.length, g.cells[o] = (a : ℤ) := by
    intro a
    obtain ⟨h1, h2⟩ := R.cell a samples[a] (by simp)
    rw [Grid.read] at h2
    split at h2
    · obtain ⟨h3, h4⟩ := List.getElem?_eq_some_iff.1 h2
      exact ⟨⟨_, h3⟩, h4⟩
    · cases h2
  choose f hf using key
  have hinj : Function.Injective f := by
    intro a b e
    have h1 := hf a
    rw [e, hf b] at h1
    exact Fin.ext (by omega)
  have := Fintype.card_le_of_injective f hinj
  simp only [Fintype.card_fin] at this
  exact_mod_cast this

/-- The invariant of the loop; `T` is what holds for a sample that has been given up. -/
structure Inv (c : Cfg) (around : ℕ → ℕ → P → P) (st : State) : Prop where
  reg : Reg c st.grid st.samples
  sep : st.samples.Pairwise c.Sep
  feas : ∀ s ∈ st.samples, c.feasible s = true
  act : ∀ a ∈ st.active, a < st.samples.length
  tried : ∀ (a : ℕ) (s : P), st.samples[a]? = some s → a ∈ st.active ∨ ∃ f, ∀ i < c.maxAttempts, Blocked c st.samples (around f i s)

theorem blocked_mono {c : Cfg} {l : List P} {x : P} (h : Blocked c l x) (m : List P) : Blocked c (l ++ m) x :=
  h.imp id fun h => h.imp id fun ⟨s, hs, hn⟩ => ⟨s, List.mem_append_left _ hs, hn⟩

theorem attempt_spec {c : Cfg} {around : ℕ → ℕ → P → P} (G : Good c) {st : State} (I : Inv c around st) (x : P) :
    (Blocked c st.samples x ∧ attempt c st x = some (st, false)) ∨
    (¬ Blocked c st.samples x ∧ ∃ g', attempt c st x = some (⟨st.samples ++ [bring c x], st.active ++ [st.samples.length], g'⟩, true) ∧
      Inv c around ⟨st.samples ++ [bring c x], st.active ++ [st.samples.length], g'⟩) := by
  have he : attempt c st x = if ¬ c.feasible (bring c x) then some (st, false)
      else
        match checkDistance c (bring c x) (side c) st.grid st.samples with
        | none => none
        | some false => some (st, false)
        | some true =>
          match st.grid.write [(toIndex c (bring c x) (side c)).1, (toIndex c (bring c x) (side c)).2] st.samples.length with
          | none => none
          | some g => some (⟨st.samples ++ [bring c x], st.active ++ [st.samples.length], g⟩, true) := rfl
  rw [he]
  by_cases hf : c.feasible (bring c x) = true
  · rw [if_neg (by simp [hf])]
    obtain ⟨b, hb, hbi⟩ := check_spec G I.reg (bring c x)
    rw [hb]
    cases b with
    | false =>
      refine Or.inl ⟨Or.inr ?_, rfl⟩
      by_contra H
      push Not at H
      have := hbi.2 ⟨H.1, fun s hs => not_not.1 (by simpa using H.2 s hs)⟩
      cases this
    | true =>
      obtain ⟨hg, hs⟩ := hbi.1 rfl
      refine Or.inr ⟨?_, ?_⟩
      · rintro (h | h | ⟨s, h1, h2⟩)
        · rw [hf] at h; cases h
        · exact h hg
        · exact h2 (hs s h1)
      obtain ⟨g', hw, R'⟩ := reg_add I.reg hg fun s h e => same_cell G.dist e (hs s h)
      refine ⟨g', ?_, R', ?_, ?_, ?_, ?_⟩
      · simp only [hw]
      · rw [List.pairwise_append]
        exact ⟨I.sep, List.pairwise_singleton _ _, fun a ha b hb => by rw [List.mem_singleton.1 hb]; exact hs a ha⟩
      · intro s h
        rcases List.mem_append.1 h with h | h
        · exact I.feas s h
        · rw [List.mem_singleton.1 h]; exact hf
      · intro a h
        simp only [List.length_append, List.length_cons, List.length_nil]
        rcases List.mem_append.1 h with h | h
        · have := I.act a h; omega
        · rw [List.mem_singleton.1 h]; omega
      · intro a s ha
        rcases Nat.lt_or_ge a st.samples.length with h | h
        · rw [List.getElem?_append_left h] at ha
          rcases I.tried a s ha with h | ⟨f, h⟩
          · exact Or.inl (List.mem_append_left _ h)
          · exact Or.inr ⟨f, fun i hi => blocked_mono (h i hi) _⟩
        · have hlt := (List.getElem?_eq_some_iff.1 ha).1
          simp only [List.length_append, List.length_cons, List.length_nil] at hlt
          exact Or.inl (List.mem_append_right _ (List.mem_singleton.2 (by omega)))
  · rw [if_pos (by simp [hf])]
    exact Or.inl ⟨Or.inl (by simpa using hf), rfl⟩

theorem attempts_spec {c : Cfg} {around : ℕ → ℕ → P → P} (G : Good c) (xs : List P) {st : State} (I : Inv c around st) (f0 : Bool) :
    ∃ st' f ys, attempts c xs st f0 = some (st', f) ∧ Inv c around st' ∧ st'.samples = st.samples ++ ys ∧
      st'.active = st.active ++ (List.range ys.length).map (fun k => st.samples.length + k) ∧
      (f = true ↔ f0 = true ∨ ys ≠ []) ∧ (f = false → ∀ x ∈ xs, Blocked c st.samples x) := by
  induction xs generalizing st f0 with
  | nil => exact ⟨st, f0, [], rfl, I, by simp, by simp, by simp, by simp⟩
  | cons x xs ih =>
    rcases attempt_spec G I x with ⟨hB, ha⟩ | ⟨hB, g', ha, I'⟩
    · obtain ⟨st', f, ys, h1, h2, h3, h4, h5, h6⟩ := ih I (f0 || false)
      refine ⟨st', f, ys, ?_, h2, h3, h4, ?_, ?_⟩
      · rw [attempts, ha]; exact h1
      · simpa using h5
      · intro hf y hy
        rcases List.mem_cons.1 hy with rfl | hy
        · exact hB
        · exact h6 hf y hy
    · obtain ⟨st', f, ys, h1, h2, h3, h4, h5, h6⟩ := ih I' (f0 || true)
      refine ⟨st', f, bring c x :: ys, ?_, h2, ?_, ?_, ?_, ?_⟩
      · rw [attempts, ha]; exact h1
      · rw [h3]; simp
      · rw [h4]
        simp only [List.length_append, List.length_cons, List.length_nil, List.range_succ_eq_map, List.map_cons, List.map_map, List.append_assoc, List.cons_append, List.nil_append, add_zero]
        congr 2
        refine List.map_congr_left fun k _ => ?_
        simp only [Function.comp]; omega
      · simpa using h5
      · intro hf
        have := h5.2 (Or.inl (by simp))
        rw [hf] at this; cases this

theorem swap_length (l : List ℕ) (k : ℕ) : (swapLast l k).length = l.length := by simp [swapLast]

theorem swap_sub {l : List ℕ} {k : ℕ} (hk : k < l.length) : ∀ a ∈ swapLast l k, a ∈ l := by
  intro a ha
  have hne : l ≠ [] := by rintro rfl; simp at hk
  rcases List.mem_or_eq_of_mem_set ha with h | h
  · rcases List.mem_or_eq_of_mem_set h with h | h
    · exact h
    · rw [h, List.getLastD_eq_getLast?, List.getLast?_eq_some_getLast hne]; exact List.getLast_mem hne
  · rw [h, List.getD_eq_getElem _ _ hk]; exact List.getElem_mem hk

theorem swap_rest {l : List ℕ} {k : ℕ} (hk : k < l.length) : ∀ a ∈ l, a = l[k] ∨ a ∈ (swapLast l k).dropLast := by
  intro a ha
  have hne : l ≠ [] := by rintro rfl; simp at hk
  obtain ⟨j, hj, rfl⟩ := List.mem_iff_getElem.1 ha
  by_cases e : j = k
  · subst e; exact Or.inl rfl
  · right
    have hlast : l.getLastD 0 = l[l.length - 1] := by
      rw [List.getLastD_eq_getLast?, List.getLast?_eq_some_getLast hne, List.getLast_eq_getElem]; rfl
    rw [List.mem_iff_getElem]
    by_cases e2 : j = l.length - 1
    · refine ⟨k, by simp [swap_length]; omega, ?_⟩
      subst e2
      simp only [List.getElem_dropLast, swapLast]
      rw [List.getElem_set_ne (by omega), List.getElem_set_self, hlast]
    · refine ⟨j, by simp [swap_length]; omega, ?_⟩
      simp only [List.getElem_dropLast, swapLast]
      rw [List.getElem_set_ne (by omega), List.getElem_set_ne (by omega)]

theorem round_spec {c : Cfg} {around : ℕ → ℕ → P → P} (G : Good c) {st : State} (I : Inv c around st) {k : ℕ} (hk : k < st.active.length) (f : ℕ) :
    ∃ st' ys, round c k (around f) st = some st' ∧ Inv c around st' ∧ st'.samples = st.samples ++ ys ∧ st'.active.length + 1 ≤ st.active.length + 2 * ys.length := by
  have ha : st.active[k]? = some st.active[k] := List.getElem?_eq_getElem hk
  have hlt := I.act _ (List.getElem_mem hk)
  have hs : st.samples[st.active[k]]? = some st.samples[st.active[k]] := List.getElem?_eq_getElem hlt
  have I1 : Inv c around { st with active := swapLast st.active k } := by
    refine ⟨I.reg, I.sep, I.feas, fun a h => I.act a (swap_sub hk a h), fun a s h => (I.tried a s h).imp (fun h => ?_) id⟩
    change a ∈ swapLast st.active k
    rcases swap_rest hk a h with e | e
    · subst e
      rw [List.mem_iff_getElem]
      refine ⟨st.active.length - 1, by rw [swap_length]; omega, ?_⟩
      simp only [swapLast]
      rw [List.getElem_set_self, List.getD_eq_getElem _ _ hk]
    · exact List.dropLast_subset _ e
  obtain ⟨st', b, ys, h1, h2, h3, h4, h5, h6⟩ := attempts_spec G ((List.range c.maxAttempts).map fun i => around f i st.samples[st.active[k]]) I1 false
  simp only at h3 h4
  cases b with
  | true =>
    have hy : ys ≠ [] := by simpa using h5
    have hy' : 1 ≤ ys.length := List.length_pos_iff.2 hy
    refine ⟨st', ys, ?_, h2, h3, ?_⟩
    · rw [round, ha]; simp only [hs, h1, if_true]
    · rw [h4, List.length_append, swap_length]; simp; omega
  | false =>
    have hy : ys = [] := by simpa using h5
    subst hy
    rw [List.append_nil] at h3
    simp only [List.length_nil, List.range_zero, List.map_nil, List.append_nil] at h4
    refine ⟨{ st' with active := st'.active.dropLast }, [], ?_, ⟨h2.reg, h2.sep, h2.feas, fun a h => h2.act a (List.dropLast_subset _ h), fun a s h => ?_⟩, by simp [h3], ?_⟩
    · rw [round, ha]; simp only [hs, h1, Bool.false_eq_true, if_false]
    · change a ∈ st'.active.dropLast ∨ _
      change st'.samples[a]? = some s at h
      rw [h3] at h
      rcases I.tried a s h with h' | ⟨q, hq⟩
      · rcases swap_rest hk a h' with e | e
        · subst e
          right
          rw [hs] at h
          obtain rfl := Option.some.inj h
          refine ⟨f, fun i hi => ?_⟩
          change Blocked c st'.samples _
          rw [h3]
          exact h6 rfl _ (List.mem_map.2 ⟨i, List.mem_range.2 hi, rfl⟩)
        · left; rw [h4]; exact e
      · right
        refine ⟨q, fun i hi => ?_⟩
        change Blocked c st'.samples _
        rw [h3]; exact hq i hi
    · change st'.active.dropLast.length + 1 ≤ _
      rw [h4, List.length_dropLast, swap_length]; simp; omega

theorem rounds_spec {c : Cfg} {around : ℕ → ℕ → P → P} {pick : ℕ → ℕ → ℕ} (G : Good c) (hp : ∀ f n, 0 < n → pick f n < n) (fuel : ℕ) {st : State} (I : Inv c around st) :
    ∃ st' ys, rounds c pick around fuel st = some st' ∧ Inv c around st' ∧ st'.samples = st.samples ++ ys ∧
      (2 * ((cellNumbers c).1 * (cellNumbers c).2 - st.samples.length) + st.active.length ≤ fuel → st'.active = []) := by
  induction fuel generalizing st with
  | zero =>
    refine ⟨st, [], rfl, I, by simp, fun h => ?_⟩
    have := reg_count I.reg
    exact List.length_eq_zero_iff.1 (by omega)
  | succ f ih =>
    rw [rounds]
    by_cases he : st.active = []
    · rw [if_pos he]
      exact ⟨st, [], rfl, I, by simp, fun _ => he⟩
    · rw [if_neg he]
      obtain ⟨st1, ys, h1, h2, h3, h4⟩ := round_spec G I (hp f _ (List.length_pos_iff.2 he)) f
      rw [h1]
      obtain ⟨st2, zs, g1, g2, g3, g4⟩ := ih h2
      refine ⟨st2, ys ++ zs, g1, g2, by rw [g3, h3, List.append_assoc], fun h => g4 ?_⟩
      rw [h3, List.length_append]
      push_cast
      omega

/-! ### The first point -/

theorem inBox_inGrid {c : Cfg} (h : 0 < c.minDistance) {x : P} (hx : InBox c x) : InGrid c x := by
  have hs := side_pos h
  have key : ∀ {x lo hi : ℝ}, lo ≤ x → x < hi → 0 ≤ ⌊(x - lo) / side c⌋ ∧ ⌊(x - lo) / side c⌋ < ⌈(hi - lo) / side c⌉ := by
    intro x lo hi h1 h2
    refine ⟨Int.floor_nonneg.2 (div_nonneg (by linarith) hs.le), ?_⟩
    have a := Int.floor_le ((x - lo) / side c)
    have b := Int.le_ceil ((hi - lo) / side c)
    have d : (x - lo) / side c < (hi - lo) / side c := div_lt_div_of_pos_right (by linarith) hs
    exact Int.cast_lt.1 (lt_of_le_of_lt a (lt_of_lt_of_le d b))
  exact ⟨key hx.1.1 hx.1.2, key hx.2.1 hx.2.2⟩

theorem cellNumbers_pos {c : Cfg} (h : 0 < c.minDistance) (hb : c.lo.1 < c.hi.1 ∧ c.lo.2 < c.hi.2) : 0 < (cellNumbers c).1 ∧ 0 < (cellNumbers c).2 := by
  have hs := side_pos h
  exact ⟨Int.ceil_pos.2 (div_pos (by linarith [hb.1]) hs), Int.ceil_pos.2 (div_pos (by linarith [hb.2]) hs)⟩

theorem start_spec {c : Cfg} (around : ℕ → ℕ → P → P) (hdist : 0 < c.minDistance) (hbox : c.lo.1 < c.hi.1 ∧ c.lo.2 < c.hi.2) {first : P} (hg : InGrid c first) (hf : c.feasible first = true) :
    ∃ st, start c fullSize false first = some st ∧ Inv c around st ∧ st.samples = [first] ∧ st.active = [0] := by
  have hn := cellNumbers_pos hdist hbox
  have R0 : Reg c (Grid.make fullSize [(cellNumbers c).1, (cellNumbers c).2] (-1)) [] := by
    refine ⟨make_ok (by simp; exact mul_nonneg hn.1.le hn.2.le) _, rfl, by simp, fun i j h => ⟨-1, make_read (inRange2.2 h) _, Or.inl rfl⟩⟩
  obtain ⟨g', hw, R'⟩ := reg_add R0 hg (by simp)
  refine ⟨⟨[first], [0], g'⟩, ?_, ⟨R', List.pairwise_singleton _ _, by simpa using hf, by simp, ?_⟩, rfl, rfl⟩
  · have : (([] : List P).length : ℤ) = 0 := rfl
    rw [this] at hw
    simp only [start, Bool.false_eq_true, false_and, if_false, hw]
  · intro a s h
    have := (List.getElem?_eq_some_iff.1 h).1
    simp only [List.length_cons, List.length_nil] at this
    left
    change a ∈ [0]
    simp; omega

end Verif.Poisson
