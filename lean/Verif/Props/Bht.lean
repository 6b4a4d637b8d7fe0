import Verif.Proof.Bht

/-!
Properties of `bht`: C36 (concurrent insertion) and C37 (query, resize).
-/
namespace Verif.Bht

variable {K : Type} [DecidableEq K]

/-! ## What a call returns -/

/-- The results of `insert`. -/
inductive Result where
  | index (n : Nat)
  | present
  | failure
  deriving DecidableEq, Repr

/-- The result of the call `t`, when it has returned. -/
def result (s : St K) (t : Nat) : Option Result :=
  match s.pc t with
  | .present => some .present
  | .failed => some .failure
  | .near _ _ => some .failure
  | .ret _ n => some (.index n)
  | _ => none

/-- The calls numbered below `N` ran, in some interleaving. -/
def Ran (c : Cfg K) (task : Nat → Task K) (s0 : St K) (N : Nat) (s : St K) : Prop :=
  ∃ sched : List (Nat × Bool), (∀ x ∈ sched, x.1 < N) ∧ run c task s0 sched = some s

/-- They all returned. -/
def Finished (s : St K) (N : Nat) : Prop := ∀ t < N, result s t ≠ none

/-! ## Helpers -/

section
variable {c : Cfg K} {task : Nat → Task K} {s s' s0 : St K} {N : Nat}

theorem run_induct {P : St K → Prop} (hstep : ∀ s t stale s', t < N → P s → step c task s t stale = some s' → P s') :
    ∀ (sched : List (Nat × Bool)) (s s' : St K), (∀ x ∈ sched, x.1 < N) → P s → run c task s sched = some s' → P s' := by
  intro sched
  induction sched with
  | nil =>
    intro s s' _ h hr
    cases hr
    exact h
  | cons x rest ih =>
    obtain ⟨t, stale⟩ := x
    intro s s' hx h hr
    unfold run at hr
    cases hs : step c task s t stale with
    | none => rw [hs] at hr; cases hr
    | some s1 =>
      rw [hs] at hr
      exact ih s1 s' (fun x h => hx x (List.mem_cons_of_mem _ h))
        (hstep s t stale s1 (hx (t, stale) List.mem_cons_self) h hs) hr

theorem Ran.induct {P : St K → Prop} (h : Ran c task s0 N s) (h0 : P s0)
    (hstep : ∀ s t stale s', t < N → P s → step c task s t stale = some s' → P s') : P s := by
  obtain ⟨sched, hx, hr⟩ := h
  exact run_induct hstep sched s0 s hx h0 hr

theorem step_other {t u : Nat} {stale : Bool} (h : step c task s t stale = some s') (hu : u ≠ t) :
    s'.pc u = s.pc u := by
  have hn : ∀ i, (s.next t i).pc u = s.pc u := by
    intro i
    unfold St.next
    split
    · exact upd_ne _ _ hu
    · exact upd_ne _ _ hu
  have hg : ∀ p, (s.goto t p).pc u = s.pc u := fun p => upd_ne _ _ hu
  have hp : ∀ p, upd s.pc t p u = s.pc u := fun p => upd_ne _ _ hu
  unfold step at h
  cases hpc : s.pc t <;> rw [hpc] at h <;> simp only at h
  case scan i l =>
    split at h
    · cases h
    · cases h
      generalize (if stale = true then c.hole else s.keys (c.offset i (task t).key + l)) = cur
      split
      · exact hg _
      · split
        · split
          · exact hg _
          · exact hn _
        · split
          · exact hn _
          · exact hg _
  case start =>
    cases h
    split
    · exact hg _
    · exact hg _
  case finish a n =>
    cases h
    split
    · exact hg _
    · exact hg _
  all_goals
    repeat' split at h
    all_goals cases h
    all_goals first | rfl | exact hg _

theorem Ran.inv {cnt : Nat} {active : Nat → K} {indices : Nat → Nat} (hB : 2 ≤ c.B)
    (h : Ran c task (c.empty cnt active indices) N s) : Inv c task s :=
  h.induct (inv_empty _ _ _) fun _ _ _ _ _ hi hs => hi.step hB hs

theorem Ran.num {active : Nat → K} {indices : Nat → Nat} (hf : Fresh task)
    (h : Ran c task (c.empty 0 active indices) N s) : Num task s :=
  h.induct (num_empty _ _) fun _ _ _ _ _ hi hs => hi.step hf hs

theorem Ran.idle {cnt : Nat} {active : Nat → K} {indices : Nat → Nat}
    (h : Ran c task (c.empty cnt active indices) N s) : ∀ t, N ≤ t → s.pc t = .start := by
  refine h.induct (P := fun s => ∀ t, N ≤ t → s.pc t = .start) (fun t _ => rfl) ?_
  intro s t stale s' ht hi hs u hu
  rw [step_other hs (by omega)]
  exact hi u hu

theorem Ran.slot_lt {cnt : Nat} {active : Nat → K} {indices : Nat → Nat}
    (h : Ran c task (c.empty cnt active indices) N s) {t a : Nat} (hs : (s.pc t).slot = some a) : t < N := by
  apply Classical.byContradiction
  intro hn
  rw [h.idle t (by omega)] at hs
  cases hs

omit [DecidableEq K] in
/-- A call that returned an index. -/
theorem result_index {t n : Nat} (h : result s t = some (.index n)) : ∃ a, s.pc t = .ret a n := by
  unfold result at h
  split at h <;> simp_all

omit [DecidableEq K] in
theorem result_present {t : Nat} (h : result s t = some .present) : s.pc t = .present := by
  unfold result at h
  split at h <;> simp_all

omit [DecidableEq K] in
/-- A call that won a slot and returned without failure. -/
theorem result_won {t a : Nat} (h : (s.pc t).slot = some a) (hf : result s t ≠ none)
    (hn : result s t ≠ some .failure) : ∃ n, s.pc t = .ret a n := by
  unfold result at hf hn
  revert h hf hn
  cases s.pc t <;> simp [Pc.slot]

end

/-! ## C36: insertion -/

variable {c : Cfg K} {task : Nat → Task K} {s : St K} {N : Nat} {active : Nat → K} {indices : Nat → Nat}

/-- No access is outside the arrays, whatever the interleaving: every run can go on. -/
theorem bht_insert_safe (hB : 2 ≤ c.B) (hf : Fresh task) (sched : List (Nat × Bool)) :
    ∃ s, run c task (c.empty 0 active indices) sched = some s := by
  have : ∀ (sched : List (Nat × Bool)) (s : St K), Inv c task s → Num task s → ∃ s', run c task s sched = some s' := by
    intro sched
    induction sched with
    | nil => intro s _ _; exact ⟨s, rfl⟩
    | cons x rest ih =>
      intro s h hN
      obtain ⟨t, stale⟩ := x
      obtain ⟨s', hs⟩ := step_defined h hB (fun t n hn _ => Nat.lt_of_lt_of_le (hN.lt t n hn) (cnt_le h hN hB)) t stale
      obtain ⟨s'', hr⟩ := ih s' (h.step hB hs) (hN.step hf hs)
      refine ⟨s'', ?_⟩
      unfold run
      rw [hs]
      exact hr
  exact this sched _ (inv_empty _ _ _) (num_empty _ _)

/-- When the calls have returned without failure, the distinct keys have the indices `0 .. m-1`:
`activeKeys` lists the keys, each once; one call per key gets its position, the others get "present".

Partial: keys differ from the sentinel (see `bht_sentinel_key_violated`), host insertion only. -/
theorem bht_insert_dense_partial (hB : 2 ≤ c.B) (hf : Fresh task) (hk : ∀ t < N, (task t).key ≠ c.hole)
    (h : Ran c task (c.empty 0 active indices) N s) (hfin : Finished s N)
    (hok : ∀ t < N, result s t ≠ some .failure) :
    ∃ ks : List K, ks.Nodup ∧ (∀ k, k ∈ ks ↔ ∃ t < N, (task t).key = k) ∧ s.cnt = ks.length ∧
      ∀ i (hi : i < ks.length), s.active i = ks[i] ∧
        ∃ t < N, (task t).key = ks[i] ∧ result s t = some (.index i) ∧
          ∀ u < N, u ≠ t → (task u).key = ks[i] → result s u = some .present := by
  have hI := h.inv hB
  have hN := h.num hf
  -- the call with index `n`
  have call : ∀ n < s.cnt, ∃ t < N, ∃ a, s.pc t = .ret a n ∧ s.keys a = (task t).key ∧ s.active n = (task t).key := by
    intro n hn
    obtain ⟨t, ht⟩ := hN.onto n hn
    have hsl : ∃ a, (s.pc t).slot = some a := by
      revert ht
      cases s.pc t <;> simp [Pc.no, Pc.slot]
    obtain ⟨a, ha⟩ := hsl
    have htN := h.slot_lt ha
    obtain ⟨n', hr⟩ := result_won ha (hfin t htN) (hok t htN)
    rw [hr] at ht
    cases ht
    exact ⟨t, htN, a, hr, (hI.own t a ha).1, hN.act t n (by rw [hr]; rfl)⟩
  -- every key has a call with an index
  have has : ∀ t < N, ∃ u < N, ∃ a n, s.pc u = .ret a n ∧ (task u).key = (task t).key := by
    intro t ht
    cases hr : result s t with
    | none => exact absurd hr (hfin t ht)
    | some r =>
      cases r with
      | failure => exact absurd hr (hok t ht)
      | index n =>
        obtain ⟨a, e⟩ := result_index hr
        exact ⟨t, ht, a, n, e, rfl⟩
      | present =>
        rcases hI.present t (result_present hr) with e | ⟨a, ha⟩
        · exact absurd e (hk t ht)
        · obtain ⟨u, hu⟩ := hI.owner a (ha ▸ hk t ht)
          have huN := h.slot_lt hu
          obtain ⟨n, e⟩ := result_won hu (hfin u huN) (hok u huN)
          exact ⟨u, huN, a, n, e, (hI.own u a hu).1.symm.trans ha⟩
  have same : ∀ t u a n b m, s.pc t = .ret a n → s.pc u = .ret b m → (task t).key = (task u).key → t = u := by
    intro t u a n b m ht hu e
    have h1 := hI.own t a (by rw [ht]; rfl)
    have h2 := hI.own u b (by rw [hu]; rfl)
    have : a = b := hI.inj hB (h1.1 ▸ h1.2) (h1.1.trans (e.trans h2.1.symm))
    subst this
    exact hI.uniq t u a (by rw [ht]; rfl) (by rw [hu]; rfl)
  refine ⟨(List.range s.cnt).map s.active, ?_, ?_, by simp, ?_⟩
  · refine List.Nodup.map_on ?_ List.nodup_range
    intro x hx y hy e
    obtain ⟨t, ht, a, h1, h2, h3⟩ := call x (List.mem_range.1 hx)
    obtain ⟨u, hu, b, h1', h2', h3'⟩ := call y (List.mem_range.1 hy)
    have := same t u a x b y h1 h1' (by rw [← h3, ← h3', e])
    subst this
    rw [h1] at h1'
    cases h1'
    rfl
  · intro k
    constructor
    · intro hm
      obtain ⟨n, hn, rfl⟩ := List.mem_map.1 hm
      obtain ⟨t, ht, a, h1, h2, h3⟩ := call n (List.mem_range.1 hn)
      exact ⟨t, ht, h3.symm⟩
    · rintro ⟨t, ht, rfl⟩
      obtain ⟨u, hu, a, n, e, ek⟩ := has t ht
      refine List.mem_map.2 ⟨n, List.mem_range.2 (hN.lt u n (by rw [e]; rfl)), ?_⟩
      rw [← ek]
      exact hN.act u n (by rw [e]; rfl)
  · intro i hi
    have hi' : i < s.cnt := by simpa using hi
    obtain ⟨t, ht, a, h1, h2, h3⟩ := call i hi'
    simp only [List.getElem_map, List.getElem_range]
    refine ⟨trivial, t, ht, h3.symm, by unfold result; rw [h1], ?_⟩
    intro u hu hne e
    cases hr : result s u with
    | none => exact absurd hr (hfin u hu)
    | some r =>
      cases r with
      | failure => exact absurd hr (hok u hu)
      | index n =>
        obtain ⟨b, e'⟩ := result_index hr
        exact absurd (same u t b n a i e' h1 (e.trans h3)) hne
      | present => rfl

/-- At no time, finished or not, do two calls with the same key both get an index. -/
theorem bht_insert_once (hB : 2 ≤ c.B) (h : Ran c task (c.empty 0 active indices) N s) {t u n m : Nat}
    (ht : result s t = some (.index n)) (hu : result s u = some (.index m)) (e : (task t).key = (task u).key) :
    t = u := by
  have hI := h.inv hB
  obtain ⟨a, ht⟩ := result_index ht
  obtain ⟨b, hu⟩ := result_index hu
  have h1 := hI.own t a (by rw [ht]; rfl)
  have h2 := hI.own u b (by rw [hu]; rfl)
  have : a = b := hI.inj hB (h1.1 ▸ h1.2) (h1.1.trans (e.trans h2.1.symm))
  subst this
  exact hI.uniq t u a (by rw [ht]; rfl) (by rw [hu]; rfl)

/-- The success flag is lowered exactly when a call has failed, unless the table has no bucket. -/
theorem bht_success_flag (hn : c.nb ≠ 0) {cnt : Nat} (h : Ran c task (c.empty cnt active indices) N s) :
    s.success = false ↔ ∃ t < N, result s t = some .failure := by
  have key : s.success = false ↔ ∃ t, result s t = some .failure := by
    refine h.induct (P := fun s => s.success = false ↔ ∃ t, result s t = some .failure) ?_ ?_
    · simp [Cfg.empty, result]
    · intro s t stale s' _ hI hs
      -- a step of a call that has not failed before
      have goto : ∀ {p : Pc} {s' : St K}, s'.success = s.success → s'.pc = upd s.pc t p →
          (∀ u, result s u = some .failure → u ≠ t) → (p ≠ .failed) → (∀ a n, p ≠ .near a n) →
          (s'.success = false ↔ ∃ t, result s' t = some .failure) := by
        intro p s' e1 e2 e3 e4 e5
        rw [e1, hI]
        constructor
        · rintro ⟨u, hu⟩
          refine ⟨u, ?_⟩
          unfold result at hu ⊢
          rw [e2, upd_ne _ _ (e3 u (by unfold result; exact hu))]
          exact hu
        · rintro ⟨u, hu⟩
          refine ⟨u, ?_⟩
          by_cases e : u = t
          · subst e
            unfold result at hu
            rw [e2, upd_same] at hu
            cases p <;> simp_all
          · unfold result at hu ⊢
            rwa [e2, upd_ne _ _ e] at hu
      have failing : ∀ {s' : St K}, s'.success = false → result s' t = some .failure →
          (s'.success = false ↔ ∃ t, result s' t = some .failure) := by
        intro s' e1 e2
        exact ⟨fun _ => ⟨t, e2⟩, fun _ => e1⟩
      have next : ∀ i, (∀ u, result s u = some .failure → u ≠ t) →
          ((s.next t i).success = false ↔ ∃ u, result (s.next t i) u = some .failure) := by
        intro i e
        unfold St.next
        split
        · exact goto rfl rfl e (by simp) (by simp)
        · exact failing rfl (by simp [result, St.goto, upd_same])
      unfold step at hs
      have hne : ∀ p, s.pc t = p → p ≠ .failed → (∀ a n, p ≠ .near a n) → ∀ u, result s u = some .failure → u ≠ t := by
        rintro p rfl h1 h2 u hu rfl
        unfold result at hu
        split at hu <;> simp_all
      cases hpc : s.pc t with
      | start =>
        have hne := hne _ hpc (by simp) (by simp)
        rw [hpc] at hs
        simp only [if_neg hn] at hs
        cases hs
        exact goto rfl rfl hne (by simp) (by simp)
      | scan i l =>
        have hne := hne _ hpc (by simp) (by simp)
        rw [hpc] at hs
        simp only at hs
        split at hs
        · cases hs
        · cases hs
          generalize (if stale = true then c.hole else s.keys (c.offset i (task t).key + l)) = cur
          split
          · exact goto rfl rfl hne (by simp) (by simp)
          · split
            · split
              · exact goto rfl rfl hne (by simp) (by simp)
              · exact next i hne
            · split
              · exact next i hne
              · exact goto rfl rfl hne (by simp) (by simp)
      | cas i l =>
        have hne := hne _ hpc (by simp) (by simp)
        rw [hpc] at hs
        simp only at hs
        split at hs
        · cases hs
        · split at hs <;> cases hs <;> exact goto rfl rfl hne (by simp) (by simp)
      | count a =>
        have hne := hne _ hpc (by simp) (by simp)
        rw [hpc] at hs
        simp only at hs
        split at hs <;> cases hs <;> exact goto rfl rfl hne (by simp) (by simp)
      | setIdx a n =>
        have hne := hne _ hpc (by simp) (by simp)
        rw [hpc] at hs
        simp only at hs
        split at hs
        · cases hs
        · cases hs; exact goto rfl rfl hne (by simp) (by simp)
      | setKey a n =>
        have hne := hne _ hpc (by simp) (by simp)
        rw [hpc] at hs
        simp only at hs
        split at hs
        · split at hs
          · cases hs
          · cases hs; exact goto rfl rfl hne (by simp) (by simp)
        · cases hs; exact goto rfl rfl hne (by simp) (by simp)
      | finish a n =>
        have hne := hne _ hpc (by simp) (by simp)
        rw [hpc] at hs
        simp only at hs
        cases hs
        split
        · exact failing rfl (by simp [result, St.goto, upd_same])
        · exact goto rfl rfl hne (by simp) (by simp)
      | present => rw [hpc] at hs; cases hs; exact hI
      | failed => rw [hpc] at hs; cases hs; exact hI
      | near a n => rw [hpc] at hs; cases hs; exact hI
      | ret a n => rw [hpc] at hs; cases hs; exact hI
  rw [key]
  constructor
  · rintro ⟨t, ht⟩
    refine ⟨t, ?_, ht⟩
    apply Classical.byContradiction
    intro hn
    have := h.idle t (by omega)
    unfold result at ht
    rw [this] at ht
    cases ht
  · rintro ⟨t, _, ht⟩
    exact ⟨t, ht⟩

/-! ## Every call finishes -/

/-- Own steps that a call still needs at most. -/
def need (c : Cfg K) (task : Nat → Task K) (s : St K) (t : Nat) : Nat :=
  match s.pc t with
  | .start => 9 * c.B + 7
  | .scan i l => 3 * ((3 - i) * c.B - l) + 4 + (if s.keys (c.offset i (task t).key + l) = c.hole then 2 else 0)
  | .cas i l => 3 * ((3 - i) * c.B - l) + 5
  | .count _ => 4
  | .setIdx _ _ => 3
  | .setKey _ _ => 2
  | .finish _ _ => 1
  | _ => 0

theorem need_scan_le {t i l : Nat} (hpc : s.pc t = .scan i l) :
    need c task s t ≤ 3 * ((3 - i) * c.B - l) + 6 := by
  unfold need
  rw [hpc]
  simp only
  split <;> omega

theorem need_next {t i : Nat} (hi : i < 3) : need c task (s.next t i) t ≤ 3 * ((3 - i - 1) * c.B) + 6 := by
  unfold St.next
  split
  · refine Nat.le_trans (need_scan_le (i := i + 1) (l := 0) (by simp [St.goto, upd_same])) ?_
    simp [Nat.sub_sub]
  · simp [need, St.goto, upd_same]

theorem need_step {t : Nat} {s' : St K} (h : Inv c task s) (hB : 2 ≤ c.B)
    (hs : step c task s t false = some s') (hn : result s t = none) : need c task s' t < need c task s t := by
  have hmul : ∀ i, i < 3 → (3 - i) * c.B = (3 - i - 1) * c.B + c.B := by
    intro i hi
    have : 3 - i = (3 - i - 1) + 1 := by omega
    rw [this, Nat.add_mul]
    simp
  unfold step at hs
  cases hpc : s.pc t with
  | start =>
    have e : need c task s t = 9 * c.B + 7 := by unfold need; rw [hpc]
    rw [e]
    rw [hpc] at hs
    simp only at hs
    cases hs
    split
    · simp [need, St.goto, upd_same]
    · refine Nat.lt_of_le_of_lt (need_scan_le (i := 0) (l := 0) (by simp [St.goto, upd_same])) ?_
      omega
  | scan i l =>
    obtain ⟨hnb, hi, hl, hc⟩ := h.scan t i l (Or.inl hpc)
    have e : need c task s t = 3 * ((3 - i) * c.B - l) + 4 +
        (if s.keys (c.offset i (task t).key + l) = c.hole then 2 else 0) := by unfold need; rw [hpc]
    rw [e]
    rw [hpc] at hs
    have hm := hmul i hi
    have hnx := need_next (c := c) (task := task) (s := s) (t := t) hi
    simp only [if_neg (Nat.not_le.2 (offset_lt hnb hl i _)), Option.some.injEq, Bool.false_eq_true, if_false] at hs
    subst hs
    split
    · have : need c task (s.goto t .present) t = 0 := by simp [need, St.goto, upd_same]
      omega
    · split
      · split
        · have : need c task (s.goto t (.cas i l)) t = 3 * ((3 - i) * c.B - l) + 5 := by
            simp [need, St.goto, upd_same]
          omega
        · omega
      · split
        · omega
        · have := need_scan_le (c := c) (task := task) (s := s.goto t (.scan i (l + 1))) (t := t) (i := i) (l := l + 1)
            (by simp [St.goto, upd_same])
          omega
  | cas i l =>
    obtain ⟨hnb, hi, hl, hc⟩ := h.scan t i l (Or.inr hpc)
    have e : need c task s t = 3 * ((3 - i) * c.B - l) + 5 := by unfold need; rw [hpc]
    rw [e]
    rw [hpc] at hs
    simp only [if_neg (Nat.not_le.2 (offset_lt hnb hl i _))] at hs
    split at hs
    · cases hs
      simp [need, upd_same]
    · next hne =>
      cases hs
      simp [need, St.goto, upd_same, hne]
  | count a =>
    rw [hpc] at hs
    simp only at hs
    split at hs <;> cases hs <;> simp [need, St.goto, upd_same, hpc]
  | setIdx a n =>
    rw [hpc] at hs
    simp only at hs
    split at hs <;> cases hs
    simp [need, upd_same, hpc]
  | setKey a n =>
    rw [hpc] at hs
    simp only at hs
    split at hs
    · split at hs <;> cases hs
      simp [need, upd_same, hpc]
    · cases hs
      simp [need, St.goto, upd_same, hpc]
  | finish a n =>
    rw [hpc] at hs
    simp only at hs
    cases hs
    split <;> simp [need, St.goto, upd_same, hpc]
  | present => simp [result, hpc] at hn
  | failed => simp [result, hpc] at hn
  | near a n => simp [result, hpc] at hn
  | ret a n => simp [result, hpc] at hn

/-- Keys are never removed. -/
private theorem step_keys {t : Nat} {stale : Bool} {s' : St K} (hs : step c task s t stale = some s') (a : Nat) :
    s'.keys a = s.keys a ∨ s.keys a = c.hole := by
  have hn : ∀ i, (s.next t i).keys = s.keys := by
    intro i
    unfold St.next
    split <;> rfl
  unfold step at hs
  cases hpc : s.pc t <;> rw [hpc] at hs <;> simp only at hs
  case scan i l =>
    split at hs
    · cases hs
    · cases hs
      refine Or.inl ?_
      generalize (if stale = true then c.hole else s.keys (c.offset i (task t).key + l)) = cur
      split
      · rfl
      · split
        · split
          · rfl
          · rw [hn]
        · split
          · rw [hn]
          · rfl
  case start => cases hs; split <;> exact Or.inl rfl
  case finish b n => cases hs; split <;> exact Or.inl rfl
  case cas i l =>
    split at hs
    · cases hs
    · split at hs
      · next e =>
        cases hs
        by_cases ea : a = c.offset i (task t).key + l
        · subst ea; exact Or.inr e
        · exact Or.inl (upd_ne _ _ ea)
      · cases hs; exact Or.inl rfl
  all_goals
    repeat' split at hs
    all_goals cases hs
    all_goals exact Or.inl rfl

theorem need_other {t u : Nat} {stale : Bool} {s' : St K} (hs : step c task s t stale = some s') (hu : u ≠ t) :
    need c task s' u ≤ need c task s u := by
  unfold need
  rw [step_other hs hu]
  cases s.pc u with
  | scan i l =>
    simp only
    rcases step_keys hs (c.offset i (task u).key + l) with e | e
    · rw [e]
      exact Nat.le_refl _
    · rw [e, if_pos rfl]
      split <;> omega
  | _ => exact Nat.le_refl _

/-- Insertion is wait-free: after `9 * B + 7` steps of its own a call has returned, whatever the others
do.  (Loads are not stale here: a thread that never sees the writes of the others could fail to claim
the same slot again and again.) -/
theorem bht_insert_wait_free (hB : 2 ≤ c.B) (sched : List Nat) (t : Nat)
    (hr : run c task (c.empty 0 active indices) (sched.map fun t => (t, false)) = some s)
    (ht : 9 * c.B + 7 ≤ sched.count t) : result s t ≠ none := by
  have key : ∀ (sched : List Nat) (s0 s : St K), Inv c task s0 →
      run c task s0 (sched.map fun t => (t, false)) = some s → result s t = none →
      need c task s t + sched.count t ≤ need c task s0 t := by
    intro sched
    induction sched with
    | nil =>
      intro s0 s _ hr _
      cases hr
      simp
    | cons u rest ih =>
      intro s0 s hI hr hn
      rw [List.map_cons] at hr
      unfold run at hr
      cases hs : step c task s0 u false with
      | none => rw [hs] at hr; cases hr
      | some s1 =>
        rw [hs] at hr
        have := ih s1 s (hI.step hB hs) hr hn
        by_cases e : u = t
        · subst e
          have hn0 : result s0 u = none := by
            apply Classical.byContradiction
            intro hne
            have stay : ∀ (rest : List Nat) (s0 s : St K), result s0 u ≠ none →
                run c task s0 (rest.map fun t => (t, false)) = some s → result s u ≠ none := by
              intro rest
              induction rest with
              | nil => intro s0 s h hr; cases hr; exact h
              | cons v rest ih =>
                intro s0 s h hr
                rw [List.map_cons] at hr
                unfold run at hr
                cases hs : step c task s0 v false with
                | none => rw [hs] at hr; cases hr
                | some s1 =>
                  rw [hs] at hr
                  refine ih s1 s ?_ hr
                  by_cases e : u = v
                  · subst e
                    unfold step at hs
                    unfold result at h
                    revert hs h
                    cases hpc : s0.pc u <;> simp <;> intro hs <;> subst hs <;> simp [result, hpc]
                  · unfold result
                    rw [step_other hs e]
                    exact h
            refine stay (u :: rest) s0 s hne ?_ hn
            rw [List.map_cons]
            unfold run
            rw [hs]
            exact hr
          have hlt := need_step hI hB hs hn0
          rw [List.count_cons_self]
          omega
        · have hle := need_other hs (Ne.symm e)
          rw [List.count_cons_of_ne e]
          omega
  intro hn
  have h1 := key sched _ s (inv_empty _ _ _) hr hn
  have h2 : need c task (c.empty 0 active indices) t = 9 * c.B + 7 := rfl
  have h3 : 0 < need c task s t := by
    unfold need
    unfold result at hn
    revert hn
    cases s.pc t <;> simp <;> omega
  omega

/-! ## C37: query -/

/-- A call has returned an index: from then on `query` of its key gives that index, also while other
insertions run. -/
theorem bht_query_inserted (hB : 2 ≤ c.B) {cnt : Nat} (h : Ran c task (c.empty cnt active indices) N s) {t n : Nat}
    (ht : result s t = some (.index n)) : query c s (task t).key = some n := by
  have hI := h.inv hB
  obtain ⟨a, e⟩ := result_index ht
  have h1 := hI.own t a (by rw [e]; rfl)
  rw [← h1.1, query_of_slot hI hB (h1.1 ▸ h1.2), hI.idx t a n (by rw [e]; rfl)]

/-- `query` of a key that no call inserts gives nothing. -/
theorem bht_query_absent (hB : 2 ≤ c.B) {cnt : Nat} (h : Ran c task (c.empty cnt active indices) N s) {k : K}
    (hk : k ≠ c.hole) (hn : ∀ t < N, (task t).key ≠ k) : query c s k = none := by
  have hI := h.inv hB
  refine query_absent fun a e => ?_
  obtain ⟨t, ht⟩ := hI.owner a (e ▸ hk)
  exact hn t (h.slot_lt ht) ((hI.own t a ht).1.symm.trans e)

/-- After the insertions, without failure: `query k` gives `i` when `activeKeys[i]` is `k`, and nothing
when `k` is not listed.

Partial: `k` differs from the sentinel. -/
theorem bht_query_partial (hB : 2 ≤ c.B) (hf : Fresh task) (hk : ∀ t < N, (task t).key ≠ c.hole)
    (h : Ran c task (c.empty 0 active indices) N s) (hfin : Finished s N)
    (hok : ∀ t < N, result s t ≠ some .failure) (k : K) (hkh : k ≠ c.hole) (i : Nat) :
    query c s k = some i ↔ i < s.cnt ∧ s.active i = k := by
  obtain ⟨ks, h1, h2, h3, h4⟩ := bht_insert_dense_partial hB hf hk h hfin hok
  constructor
  · intro hq
    by_cases hm : k ∈ ks
    · obtain ⟨j, hj, rfl⟩ := List.getElem_of_mem hm
      obtain ⟨h5, t, ht, e1, e2, _⟩ := h4 j hj
      have := bht_query_inserted hB h e2
      rw [e1, hq] at this
      cases this
      exact ⟨by omega, h5⟩
    · have := bht_query_absent hB h hkh fun t ht e => hm ((h2 k).2 ⟨t, ht, e⟩)
      rw [hq] at this
      cases this
  · rintro ⟨hi, rfl⟩
    rw [h3] at hi
    obtain ⟨h5, t, ht, e1, e2, _⟩ := h4 i hi
    rw [h5, ← e1]
    exact bht_query_inserted hB h e2

/-! ## C37: resize -/

theorem resize_frame {act : Nat → K} {t : Nat} {stale : Bool} {s' : St K}
    (hs : step c (resizeTask act) s t stale = some s') :
    s'.cnt = s.cnt ∧ s'.active = s.active ∧
    ((∀ u n, (s.pc u).no = some n → n = u) → ∀ u n, (s'.pc u).no = some n → n = u) := by
  have goto : ∀ {p : Pc}, (∀ n, p.no = some n → n = t) →
      ((∀ u n, (s.pc u).no = some n → n = u) → ∀ u n, (upd s.pc t p u).no = some n → n = u) := by
    intro p hp h u n hu
    by_cases e : u = t
    · subst e; rw [upd_same] at hu; exact hp n hu
    · rw [upd_ne _ _ e] at hu; exact h u n hu
  have keep : ∀ {p : Pc}, p.no = (s.pc t).no →
      ((∀ u n, (s.pc u).no = some n → n = u) → ∀ u n, (upd s.pc t p u).no = some n → n = u) := by
    intro p hp h
    exact goto (fun n hn => h t n (hp ▸ hn)) h
  have next : ∀ i, (s.next t i).cnt = s.cnt ∧ (s.next t i).active = s.active ∧
      ((∀ u n, (s.pc u).no = some n → n = u) → ∀ u n, ((s.next t i).pc u).no = some n → n = u) := by
    intro i
    unfold St.next
    split
    · exact ⟨rfl, rfl, goto (by simp [Pc.no])⟩
    · exact ⟨rfl, rfl, goto (by simp [Pc.no])⟩
  unfold step at hs
  cases hpc : s.pc t <;> rw [hpc] at hs keep <;> simp only at hs
  case start => cases hs; split <;> exact ⟨rfl, rfl, goto (by simp [Pc.no])⟩
  case scan i l =>
    split at hs
    · cases hs
    · cases hs
      generalize (if stale = true then c.hole else s.keys (c.offset i (resizeTask act t).key + l)) = cur
      split
      · exact ⟨rfl, rfl, goto (by simp [Pc.no])⟩
      · split
        · split
          · exact ⟨rfl, rfl, goto (by simp [Pc.no])⟩
          · exact next i
        · split
          · exact next i
          · exact ⟨rfl, rfl, goto (by simp [Pc.no])⟩
  case cas i l =>
    split at hs
    · cases hs
    · split at hs <;> cases hs <;> exact ⟨rfl, rfl, goto (by simp [Pc.no])⟩
  case count a =>
    simp only [resizeTask] at hs
    cases hs
    exact ⟨rfl, rfl, goto (by simp [Pc.no])⟩
  case setIdx a n =>
    split at hs <;> cases hs
    exact ⟨rfl, rfl, keep rfl⟩
  case setKey a n =>
    simp only [resizeTask, Bool.false_eq_true, if_false] at hs
    cases hs
    exact ⟨rfl, rfl, keep rfl⟩
  case finish a n =>
    cases hs
    split <;> exact ⟨rfl, rfl, keep rfl⟩
  all_goals cases hs; exact ⟨rfl, rfl, id⟩

/-- The insertions of `resize` never leave the new arrays, and change neither the counter nor the list. -/
theorem bht_resize_safe (hB : 2 ≤ c.B) (act : Nat → K) (cnt : Nat) (sched : List (Nat × Bool)) :
    ∃ s, run c (resizeTask act) (c.empty cnt act indices) sched = some s ∧ s.cnt = cnt ∧ s.active = act := by
  have : ∀ (sched : List (Nat × Bool)) (s : St K), Inv c (resizeTask act) s →
      ∃ s', run c (resizeTask act) s sched = some s' ∧ s'.cnt = s.cnt ∧ s'.active = s.active := by
    intro sched
    induction sched with
    | nil => intro s _; exact ⟨s, rfl, rfl, rfl⟩
    | cons x rest ih =>
      intro s h
      obtain ⟨t, stale⟩ := x
      obtain ⟨s', hs⟩ := step_defined h hB (fun t n hn he => by simp [resizeTask] at he) t stale
      obtain ⟨s'', hr, h1, h2⟩ := ih s' (h.step hB hs)
      obtain ⟨h3, h4, _⟩ := resize_frame hs
      refine ⟨s'', ?_, h1.trans h3, h2.trans h4⟩
      unfold run
      rw [hs]
      exact hr
  exact this sched _ (inv_empty _ _ _)

/-- Re-inserting `n` distinct keys: `query` finds each at its old index and nothing else. -/
theorem bht_reinsert (hB : 2 ≤ c.B) {act : Nat → K} {cnt n : Nat} (hk : ∀ i < n, act i ≠ c.hole)
    (hd : ∀ i < n, ∀ j < n, act i = act j → i = j)
    (h : Ran c (resizeTask act) (c.empty cnt act indices) n s) (hfin : Finished s n)
    (hok : ∀ t < n, result s t ≠ some .failure) (k : K) (hkh : k ≠ c.hole) (i : Nat) :
    query c s k = some i ↔ i < n ∧ act i = k := by
  have hI := h.inv hB
  have hno : ∀ u n, (s.pc u).no = some n → n = u :=
    h.induct (P := fun s => ∀ u n, (s.pc u).no = some n → n = u) (by simp [Cfg.empty, Pc.no])
      fun s t stale s' _ hP hs => (resize_frame hs).2.2 hP
  have hall : ∀ t < n, ∃ a, s.pc t = .ret a t := by
    intro t ht
    cases hr : result s t with
    | none => exact absurd hr (hfin t ht)
    | some r =>
      cases r with
      | failure => exact absurd hr (hok t ht)
      | index m =>
        obtain ⟨a, e⟩ := result_index hr
        have := hno t m (by rw [e]; rfl)
        subst this
        exact ⟨a, e⟩
      | present =>
        exfalso
        have hp := result_present hr
        rcases hI.present t hp with e | ⟨a, ha⟩
        · exact hk t ht e
        · have ha : s.keys a = act t := ha
          obtain ⟨u, hu⟩ := hI.owner a (ha ▸ hk t ht)
          have huN := h.slot_lt hu
          have : act u = act t := (hI.own u a hu).1.symm.trans ha
          have := hd u huN t ht this
          subst this
          rw [hp] at hu
          cases hu
  constructor
  · intro hq
    by_cases hm : ∃ t < n, act t = k
    · obtain ⟨t, ht, rfl⟩ := hm
      obtain ⟨a, e⟩ := hall t ht
      have := bht_query_inserted hB h (t := t) (n := t) (by unfold result; rw [e])
      have h' : query c s (act t) = some t := this
      rw [hq] at h'
      cases h'
      exact ⟨ht, rfl⟩
    · have := bht_query_absent hB h hkh fun t ht e => hm ⟨t, ht, e⟩
      rw [hq] at this
      cases this
  · rintro ⟨hi, rfl⟩
    obtain ⟨a, e⟩ := hall i hi
    exact bht_query_inserted hB h (t := i) (n := i) (by unfold result; rw [e])

/-- `resize` keeps what `query` returns: the keys listed by the insertions are inserted again, with any
interleaving, into a table with other parameters. -/
theorem bht_resize_partial {c' : Cfg K} {indices' : Nat → Nat} {s' : St K} (hB : 2 ≤ c.B) (hB' : 2 ≤ c'.B)
    (hh : c'.hole = c.hole) (hf : Fresh task)
    (hk : ∀ t < N, (task t).key ≠ c.hole) (h : Ran c task (c.empty 0 active indices) N s) (hfin : Finished s N)
    (hok : ∀ t < N, result s t ≠ some .failure)
    (h' : Ran c' (resizeTask s.active) (c'.empty s.cnt s.active indices') s.cnt s') (hfin' : Finished s' s.cnt)
    (hok' : ∀ t < s.cnt, result s' t ≠ some .failure) (k : K) (hkh : k ≠ c.hole) :
    query c' s' k = query c s k := by
  obtain ⟨ks, h1, h2, h3, h4⟩ := bht_insert_dense_partial hB hf hk h hfin hok
  have e : ∀ i, query c' s' k = some i ↔ query c s k = some i := by
    intro i
    rw [bht_query_partial hB hf hk h hfin hok k hkh i]
    refine bht_reinsert hB' ?_ ?_ h' hfin' hok' k (hh ▸ hkh) i
    · intro i hi
      rw [h3] at hi
      obtain ⟨h5, t, ht, e1, _⟩ := h4 i hi
      rw [hh, h5, ← e1]
      exact hk t ht
    · intro i hi j hj e
      rw [h3] at hi hj
      rw [(h4 i hi).1, (h4 j hj).1] at e
      exact (List.Nodup.getElem_inj_iff h1).1 e
  exact Option.ext e

/-! ## The table size -/

/-- The size of a new table is a multiple of the bucket size and has room for twice the expected
entries. -/
theorem bht_table_size {next2pow : Nat → Nat} {B n : Nat} (hp : n ≤ next2pow n) (hn : n ≠ 0) (hB : 0 < B) :
    B ∣ evaluateTableSize next2pow B n ∧ 2 * n < evaluateTableSize next2pow B n := by
  unfold evaluateTableSize
  rw [if_neg hn]
  simp only
  have hm := Nat.mod_lt (next2pow n * 2) hB
  have hd := Nat.div_add_mod (next2pow n * 2) B
  constructor
  · refine ⟨next2pow n * 2 / B + 1, ?_⟩
    rw [Nat.mul_add]
    omega
  · omega

omit [DecidableEq K] in
/-- With the default bucket size of 16, a table made for `n` entries does not refuse the first `n`
indices ("proximity", line 644), although `_tableSize - 20` wraps around for `n ≤ 4`. -/
theorem bht_capacity {next2pow : Nat → Nat} {n j : Nat} (hp : n ≤ next2pow n) (hj : next2pow n = 2 ^ j) (hn : n ≠ 0)
    (hB : c.B = 16) (hc : c.size = evaluateTableSize next2pow c.B n) (hw : c.size < 2 ^ c.width) (h32 : 32 ≤ c.width) :
    n ≤ c.limit := by
  have hw' : 2 ^ 32 ≤ 2 ^ c.width := Nat.pow_le_pow_right (by omega) h32
  have hlim : ∀ x, 20 ≤ x → x < 2 ^ c.width → (x + 2 ^ c.width - 20) % 2 ^ c.width = x - 20 := by
    intro x h1 h2
    have : x + 2 ^ c.width - 20 = (x - 20) + 2 ^ c.width := by omega
    rw [this, Nat.add_mod_right, Nat.mod_eq_of_lt (by omega)]
  have hev : c.size = 2 ^ j * 2 + (16 - 2 ^ j * 2 % 16) := by
    rw [hc, hB]
    unfold evaluateTableSize
    rw [if_neg hn, hj]
  unfold Cfg.limit
  rw [hj] at hp
  by_cases h3 : j < 3
  · have : 2 ^ j ≤ 2 ^ 2 := Nat.pow_le_pow_right (by omega) (by omega)
    have h16 : c.size = 16 := by rw [hev]; omega
    rw [h16, Nat.mod_eq_of_lt (by omega)]
    omega
  · obtain ⟨i, rfl⟩ : ∃ i, j = i + 3 := ⟨j - 3, by omega⟩
    have e : 2 ^ (i + 3) * 2 = 16 * 2 ^ i := by rw [Nat.pow_add]; omega
    have e' : 2 ^ (i + 3) = 8 * 2 ^ i := by rw [Nat.pow_add]; omega
    have hi : 0 < 2 ^ i := Nat.pow_pos (by omega)
    rw [e, Nat.mul_mod_right] at hev
    rw [hlim _ (by omega) hw]
    omega

/-! ## When insertion fails -/

/-- A call that failed has seen its three buckets full, or found itself too close to the end. -/
def Blocked (c : Cfg K) (task : Nat → Task K) (s : St K) : Prop :=
  ∀ t, (s.pc t = .failed → c.nb = 0 ∨ Clear c s.keys (task t).key 3 0) ∧ ∀ a n, s.pc t = .near a n → c.limit ≤ n

theorem Blocked.step {t : Nat} {stale : Bool} {s' : St K} (hB : 2 ≤ c.B) (hI : Inv c task s) (h : Blocked c task s)
    (hs : step c task s t stale = some s') : Blocked c task s' := by
  have stay : ∀ k i l, Clear c s.keys k i l → Clear c s'.keys k i l := by
    intro k i l hc i' l' hp
    rcases step_keys hs (c.offset i' k + l') with e | e
    · rw [e]; exact hc i' l' hp
    · exact absurd e (hc i' l' hp).1
  intro u
  by_cases hu : u = t
  · subst hu
    have hmy := h u
    unfold Bht.step at hs
    have next : ∀ i, s' = s.next u i → (∀ i' l', i' ≤ i → l' + 1 < c.B →
        s.keys (c.offset i' (task u).key + l') ≠ c.hole ∧ s.keys (c.offset i' (task u).key + l') ≠ (task u).key) →
        (s'.pc u = .failed → c.nb = 0 ∨ Clear c s'.keys (task u).key 3 0) ∧ ∀ a n, s'.pc u = .near a n → c.limit ≤ n := by
      intro i e hc
      subst e
      unfold St.next
      split
      · simp [St.goto, upd_same]
      · refine ⟨fun _ => .inr ?_, by simp [St.goto, upd_same]⟩
        intro i' l' hp
        exact hc i' l' (by omega) (by omega)
    cases hpc : s.pc u with
    | start =>
      rw [hpc] at hs
      cases hs
      split
      · rename_i hn; exact ⟨fun _ => .inl hn, by simp [St.goto, upd_same]⟩
      · simp [St.goto, upd_same]
    | scan i l =>
      rw [hpc] at hs
      obtain ⟨hn, hi, hl, hc⟩ := hI.scan u i l (Or.inl hpc)
      simp only [if_neg (Nat.not_le.2 (offset_lt hn hl i _)), Option.some.injEq] at hs
      by_cases e1 : (if stale = true then c.hole else s.keys (c.offset i (task u).key + l)) = (task u).key
      · rw [if_pos e1] at hs
        cases hs; simp [St.goto, upd_same]
      · rw [if_neg e1] at hs
        by_cases e2 : (if stale = true then c.hole else s.keys (c.offset i (task u).key + l)) = c.hole
        · rw [if_pos e2] at hs
          split at hs
          · cases hs; simp [St.goto, upd_same]
          · rename_i hlt
            refine next i hs.symm fun i' l' x1 x2 => ?_
            unfold Cfg.threshold at hlt
            exact hc i' l' (by omega)
        · rw [if_neg e2] at hs
          have hst : stale = false := by
            cases stale
            · rfl
            · simp at e2
          subst hst
          simp only [Bool.false_eq_true, if_false] at e1 e2
          split at hs
          · refine next i hs.symm fun i' l' x1 x2 => ?_
            by_cases e : i' = i ∧ l' = l
            · obtain ⟨rfl, rfl⟩ := e
              exact ⟨e2, e1⟩
            · exact hc i' l' (by omega)
          · cases hs; simp [St.goto, upd_same]
    | cas i l =>
      rw [hpc] at hs
      simp only at hs
      repeat' split at hs
      all_goals cases hs
      all_goals simp [St.goto, upd_same]
    | count a =>
      rw [hpc] at hs
      cases hg : (task u).given with
      | none => rw [hg] at hs; cases hs; simp [upd_same]
      | some n => rw [hg] at hs; cases hs; simp [St.goto, upd_same]
    | setIdx a n =>
      rw [hpc] at hs
      simp only at hs
      split at hs <;> cases hs
      simp [upd_same]
    | setKey a n =>
      rw [hpc] at hs
      simp only at hs
      repeat' split at hs
      all_goals cases hs
      all_goals simp [St.goto, upd_same]
    | finish a n =>
      rw [hpc] at hs
      cases hs
      split
      · rename_i hl
        refine ⟨by simp [St.goto, upd_same], fun b m e => ?_⟩
        simp only [St.goto, upd_same, Pc.near.injEq] at e
        omega
      · simp [St.goto, upd_same]
    | present => rw [hpc] at hs; cases hs; exact hmy
    | failed => rw [hpc] at hs; cases hs; exact hmy
    | near a n => rw [hpc] at hs; cases hs; exact hmy
    | ret a n => rw [hpc] at hs; cases hs; exact hmy
  · rw [step_other hs hu]
    exact ⟨fun e => ((h u).1 e).imp id (stay _ _ _), (h u).2⟩

theorem Ran.blocked {cnt : Nat} (hB : 2 ≤ c.B) (h : Ran c task (c.empty cnt active indices) N s) : Blocked c task s := by
  refine (h.induct (P := fun s => Inv c task s ∧ Blocked c task s) ⟨inv_empty _ _ _, fun t => ⟨fun e => ?_, fun a n e => ?_⟩⟩
    fun s t stale s' _ hi hs => ⟨hi.1.step hB hs, hi.2.step hB hi.1 hs⟩).2
  · cases e
  · cases e

/-- An insertion is refused only if the table has no bucket, or its index is too close to the end of the table, or the
usable slots of its three buckets, all but the last of each, hold other keys. -/
theorem bht_insert_refused (hB : 2 ≤ c.B) (hf : Fresh task) (h : Ran c task (c.empty 0 active indices) N s) {t : Nat}
    (ht : result s t = some .failure) :
    c.nb = 0 ∨ c.limit < s.cnt ∨ ∀ i < 3, ∀ l, l + 1 < c.B →
      s.keys (c.offset i (task t).key + l) ≠ c.hole ∧ s.keys (c.offset i (task t).key + l) ≠ (task t).key := by
  have hb := h.blocked hB t
  have hN := h.num hf
  cases hpc : s.pc t with
  | failed =>
    rcases hb.1 hpc with e | e
    · exact .inl e
    · exact .inr (.inr fun i hi l hl => e i l (.inl ⟨hi, hl⟩))
  | near a n =>
    have h1 := hb.2 a n hpc
    have h2 := hN.lt t n (by rw [hpc]; rfl)
    exact .inr (.inl (by omega))
  | start => simp [result, hpc] at ht
  | scan i l => simp [result, hpc] at ht
  | cas i l => simp [result, hpc] at ht
  | count a => simp [result, hpc] at ht
  | setIdx a n => simp [result, hpc] at ht
  | setKey a n => simp [result, hpc] at ht
  | finish a n => simp [result, hpc] at ht
  | present => simp [result, hpc] at ht
  | ret a n => simp [result, hpc] at ht

/-- Fewer calls than a bucket has slots: none is refused, whatever the hash functions and the interleaving. -/
theorem bht_insert_room (hB : 2 ≤ c.B) (hf : Fresh task) (hn : c.nb ≠ 0) (hN : N < c.B) (hl : N ≤ c.limit)
    (h : Ran c task (c.empty 0 active indices) N s) (t : Nat) : result s t ≠ some .failure := by
  intro ht
  have hI := h.inv hB
  have hnum := h.num hf
  have htN : t < N := by
    apply Classical.byContradiction
    intro hc
    rw [result, h.idle t (by omega)] at ht
    cases ht
  have hcnt : s.cnt ≤ N := by
    have hch : ∃ f : Nat → Nat, ∀ n, n < s.cnt → (s.pc (f n)).no = some n := by
      refine ⟨fun n => if hn : n < s.cnt then (hnum.onto n hn).choose else 0, fun n hn => ?_⟩
      simp only [hn, dif_pos]
      exact (hnum.onto n hn).choose_spec
    obtain ⟨f, hf⟩ := hch
    have hnd : ((List.range s.cnt).map f).Nodup := by
      refine List.Nodup.map_on ?_ List.nodup_range
      intro x hx y hy e
      have h1 := hf x (List.mem_range.1 hx)
      have h2 := hf y (List.mem_range.1 hy)
      rw [e, h2] at h1
      exact (Option.some.inj h1).symm
    have hsub : (List.range s.cnt).map f ⊆ List.range N := by
      intro x hx
      obtain ⟨n, hn, rfl⟩ := List.mem_map.1 hx
      have h1 := hf n (List.mem_range.1 hn)
      apply List.mem_range.2
      apply Classical.byContradiction
      intro hc
      rw [h.idle _ (by omega)] at h1
      cases h1
    have := (List.subperm_of_subset hnd hsub).length_le
    simpa using this
  rcases bht_insert_refused hB hf h ht with e | e | e
  · exact hn e
  · omega
  · have e := e 0 (by omega)
    generalize c.offset 0 (task t).key = o at e
    have hch : ∃ f : Nat → Nat, ∀ l, l + 1 < c.B → (s.pc (f l)).slot = some (o + l) := by
      refine ⟨fun l => if hn : l + 1 < c.B then (hI.owner _ (e l hn).1).choose else 0, fun l hn => ?_⟩
      simp only [hn, dif_pos]
      exact (hI.owner _ (e l hn).1).choose_spec
    obtain ⟨f, hf⟩ := hch
    have hnd : (t :: (List.range (c.B - 1)).map f).Nodup := by
      refine List.nodup_cons.2 ⟨?_, List.Nodup.map_on ?_ List.nodup_range⟩
      · intro hm
        obtain ⟨l, hl, el⟩ := List.mem_map.1 hm
        have hl := List.mem_range.1 hl
        have h1 := hf l (by omega)
        rw [el] at h1
        exact (e l (by omega)).2 (hI.own t _ h1).1
      · intro x hx y hy ee
        have hx := List.mem_range.1 hx
        have hy := List.mem_range.1 hy
        have h1 := hf x (by omega)
        have h2 := hf y (by omega)
        rw [ee, h2] at h1
        have := Option.some.inj h1
        omega
    have hsub : (t :: (List.range (c.B - 1)).map f) ⊆ List.range N := by
      intro x hx
      rcases List.mem_cons.1 hx with rfl | hx
      · exact List.mem_range.2 htN
      · obtain ⟨l, hl, rfl⟩ := List.mem_map.1 hx
        have hl := List.mem_range.1 hl
        exact List.mem_range.2 (h.slot_lt (hf l (by omega)))
    have := (List.subperm_of_subset hnd hsub).length_le
    simp only [List.length_cons, List.length_map, List.length_range] at this
    omega

/-- A call that has returned keeps its result. -/
theorem bht_result_stable : ∀ (sched : List (Nat × Bool)) {s s' : St K}, run c task s sched = some s' → ∀ t, result s t ≠ none →
    result s' t = result s t := by
  intro sched
  induction sched with
  | nil => intro s s' h t _; cases h; rfl
  | cons x rest ih =>
    intro s s' h t ht
    obtain ⟨u, stale⟩ := x
    unfold run at h
    cases hs : step c task s u stale with
    | none => rw [hs] at h; cases h
    | some s1 =>
      rw [hs] at h
      have h1 : s1.pc t = s.pc t := by
        by_cases e : t = u
        · subst e
          unfold step at hs
          unfold result at ht
          cases hpc : s.pc t <;> rw [hpc] at hs ht <;> simp at ht
          all_goals cases hs; exact hpc
        · exact step_other hs e
      have h2 : result s1 t = result s t := by unfold result; rw [h1]
      rw [ih h t (by rw [h2]; exact ht), h2]

/-- A run depends only on the keys of the calls that step. -/
theorem run_congr {task' : Nat → Task K} : ∀ (sched : List (Nat × Bool)), (∀ x ∈ sched, task x.1 = task' x.1) → ∀ s : St K,
    run c task s sched = run c task' s sched := by
  intro sched
  induction sched with
  | nil => intro _ s; rfl
  | cons x rest ih =>
    intro h s
    obtain ⟨u, stale⟩ := x
    have e : step c task s u stale = step c task' s u stale := by
      have : task u = task' u := h (u, stale) List.mem_cons_self
      unfold step
      rw [this]
    unfold run
    rw [e]
    cases step c task' s u stale with
    | none => rfl
    | some s1 => exact ih (fun x hx => h x (List.mem_cons_of_mem _ hx)) s1

theorem run_append : ∀ (a b : List (Nat × Bool)) (s : St K), run c task s (a ++ b) = (run c task s a).bind fun s' => run c task s' b := by
  intro a
  induction a with
  | nil => intro b s; rfl
  | cons x rest ih =>
    intro b s
    obtain ⟨u, stale⟩ := x
    rw [List.cons_append]
    simp only [run]
    cases step c task s u stale with
    | none => rfl
    | some s1 => exact ih b s1

/-! ## Wrong for the sentinel key, and for padded keys -/

section
private def small : Cfg Nat := { B := 3, nb := 2, hf := fun _ k => k, hole := 63, width := 32 }
private def mine : Nat → Task Nat := fun _ => { key := 63, given := none, enqueue := true }

/-- Inserting a key equal to the sentinel (all bytes `0x3f`): "already present" although nothing was
inserted, and `query` returns whatever the index array holds. -/
theorem bht_sentinel_key_violated :
    ∃ s, run small mine (small.empty 0 (fun _ => 0) (fun _ => 99)) [(0, false), (0, false)] = some s ∧
      result s 0 = some .present ∧ s.cnt = 0 ∧ query small s 63 = some 99 := by
  refine ⟨_, rfl, ?_⟩
  decide
end

/-- `atomicSwitchIfEqual` on one word without padding: it says that it switched exactly when the slot
held the sentinel, and then the slot holds the key. -/
theorem bht_switch_word (mem sent key : BitVec 64) :
    (switchWord 0 mem sent key).2 = decide (mem = sent) ∧
    (switchWord 0 mem sent key).1 = if mem = sent then key else mem := by
  simp only [switchWord, Nat.zero_mul, BitVec.shiftLeft_zero, and_true]
  by_cases h : mem = sent <;> simp [h]

/-- With padding (three 16-bit components in a word of eight bytes) the padding of the local copy of
the sentinel is not initialised; when it differs from the `0x3f` bytes of the slot, the operation says
that it switched although the key was not stored. -/
theorem bht_switch_padded_violated :
    let mem : BitVec 64 := 0x3f3f3f3f3f3f3f3f
    let sent : BitVec 64 := 0x00003f3f3f3f3f3f
    let key : BitVec 64 := 0x000300020001
    switchWord 2 mem sent key = (mem, true) := by decide

/-! ## The hypotheses can be met -/

section
private def cfg : Cfg Nat := { B := 4, nb := 7, hf := fun i k => (i + 1) * k, hole := 63, width := 32 }
private def calls : Nat → Task Nat := fun t => { key := if t = 2 then 5 else if t = 1 then 12 else 5, given := none, enqueue := true }

/-- Three calls, two with the same key, all keys in the same bucket, interleaved; the third call loses
the race for the slot. -/
private def sched : List (Nat × Bool) :=
  [(0, false), (2, false), (1, false), (0, false), (2, false), (0, false), (2, false), (1, true), (1, false),
   (2, false), (1, false)] ++ List.replicate 5 (1, false) ++ List.replicate 5 (0, false) ++ [(1, false), (1, false), (1, false)]

example : ∃ s, Ran cfg calls (cfg.empty 0 (fun _ => 0) (fun _ => 0)) 3 s ∧ Finished s 3 ∧
    (∀ t < 3, result s t ≠ some .failure) ∧ Fresh calls ∧ (∀ t < 3, (calls t).key ≠ cfg.hole) ∧
    (s.cnt, s.active 0, s.active 1) = (2, 12, 5) ∧
    (result s 0, result s 1, result s 2) = (some (.index 1), some (.index 0), some .present) ∧
    (query cfg s 5, query cfg s 12, query cfg s 6) = (some 1, some 0, none) := by
  refine ⟨_, ⟨sched, by decide, rfl⟩, ?_, ?_, fun t => ⟨rfl, rfl⟩, by decide, by decide, by decide, by decide⟩
  · unfold Finished; decide
  · decide

/-- `resize` after those calls, the two keys re-inserted in the other order into a larger table. -/
example : ∃ s', Ran { cfg with nb := 9 } (resizeTask fun i => if i = 0 then 12 else 5)
      (Cfg.empty { cfg with nb := 9 } 2 (fun i => if i = 0 then 12 else 5) fun _ => 0) 2 s' ∧ Finished s' 2 ∧
    (∀ t < 2, result s' t ≠ some .failure) ∧ s'.cnt = 2 ∧
    (query { cfg with nb := 9 } s' 5, query { cfg with nb := 9 } s' 12, query { cfg with nb := 9 } s' 6) =
      (some 1, some 0, none) := by
  refine ⟨_, ⟨List.replicate 7 (1, false) ++ List.replicate 7 (0, false), by decide, rfl⟩, ?_, ?_, rfl, by decide⟩
  · unfold Finished; decide
  · decide
end

end Verif.Bht
