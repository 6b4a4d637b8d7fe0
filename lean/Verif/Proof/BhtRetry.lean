import Verif.Props.Bht
import Mathlib.Data.List.Nodup
/-! Helper lemmas for insertion into a `bht` after `resize`: keys listed before keep their numbers, new keys get the next ones. -/
namespace Verif.Bht

variable {K : Type} [DecidableEq K] {c : Cfg K} {task : Nat → Task K} {s s' : St K} {t N n0 : Nat} {act : Nat → K} {indices : Nat → Nat}

/-- The calls below `n0` are those of `resize`, the others insert. -/
structure Mixed (task : Nat → Task K) (n0 : Nat) (act : Nat → K) : Prop where
  old : ∀ t < n0, task t = resizeTask act t
  new : ∀ t, n0 ≤ t → (task t).given = none ∧ (task t).enqueue = true

/-- Numbering. -/
structure Mix (task : Nat → Task K) (n0 : Nat) (act : Nat → K) (s : St K) : Prop where
  le : n0 ≤ s.cnt
  oldAct : ∀ i < n0, s.active i = act i
  oldNo : ∀ t n, t < n0 → (s.pc t).no = some n → n = t
  lt : ∀ t n, n0 ≤ t → (s.pc t).no = some n → n0 ≤ n ∧ n < s.cnt
  inj : ∀ t t' n, n0 ≤ t → n0 ≤ t' → (s.pc t).no = some n → (s.pc t').no = some n → t = t'
  onto : ∀ n, n0 ≤ n → n < s.cnt → ∃ t, n0 ≤ t ∧ (s.pc t).no = some n
  act : ∀ t n, n0 ≤ t → (s.pc t).listed = some n → s.active n = (task t).key

omit [DecidableEq K] in
theorem Mix.goto {p : Pc} (h : Mix task n0 act s) (hc : s'.cnt = s.cnt) (ha : s'.active = s.active) (hp : s'.pc = upd s.pc t p)
    (hn : p.no = (s.pc t).no ∨ (t < n0 ∧ p.no = some t)) (hl : ∀ n, n0 ≤ t → p.listed = some n → (s.pc t).listed = some n) : Mix task n0 act s' := by
  have hno : ∀ u, n0 ≤ u → (s'.pc u).no = (s.pc u).no := by
    intro u hu
    rw [hp]
    by_cases e : u = t
    · subst e
      rw [upd_same]
      rcases hn with hn | ⟨hn, _⟩
      · exact hn
      · omega
    · rw [upd_ne _ _ e]
  refine ⟨by rw [hc]; exact h.le, by rw [ha]; exact h.oldAct, ?_, ?_, ?_, ?_, ?_⟩
  · intro u n hu
    rw [hp]
    by_cases e : u = t
    · subst e
      rw [upd_same]
      rcases hn with hn | ⟨_, hn⟩
      · rw [hn]; exact h.oldNo u n hu
      · rw [hn]; intro e; cases e; rfl
    · rw [upd_ne _ _ e]; exact h.oldNo u n hu
  · intro u n hu
    rw [hno u hu, hc]; exact h.lt u n hu
  · intro u u' n hu hu'
    rw [hno u hu, hno u' hu']; exact h.inj u u' n hu hu'
  · intro n h1 h2
    rw [hc] at h2
    obtain ⟨u, hu, e⟩ := h.onto n h1 h2
    exact ⟨u, hu, by rw [hno u hu, e]⟩
  · intro u n hu hl'
    rw [ha]
    rw [hp] at hl'
    by_cases e : u = t
    · subst e; rw [upd_same] at hl'; exact h.act u n hu (hl n hu hl')
    · rw [upd_ne _ _ e] at hl'; exact h.act u n hu hl'

omit [DecidableEq K] in
theorem Mix.count {a : Nat} (h : Mix task n0 act s) (ht : n0 ≤ t) (hpc : s.pc t = .count a) :
    Mix task n0 act { s with cnt := s.cnt + 1, pc := upd s.pc t (.setIdx a s.cnt) } := by
  have hle := h.le
  refine ⟨Nat.le_succ_of_le hle, h.oldAct, ?_, ?_, ?_, ?_, ?_⟩
  · intro u n hu
    simp only [upd_ne _ _ (show u ≠ t by omega)]
    exact h.oldNo u n hu
  · intro u n hu hn
    by_cases e : u = t
    · subst e
      simp only [upd_same, Pc.no, Option.some.injEq] at hn
      simp only
      omega
    · simp only [upd_ne _ _ e] at hn
      have := h.lt u n hu hn
      simp only
      omega
  · intro u u' n hu hu' hn hn'
    by_cases e : u = t
    · by_cases e' : u' = t
      · rw [e, e']
      · subst e
        simp only [upd_same, upd_ne _ _ e', Pc.no, Option.some.injEq] at hn hn'
        have := h.lt u' n hu' hn'
        omega
    · by_cases e' : u' = t
      · subst e'
        simp only [upd_same, upd_ne _ _ e, Pc.no, Option.some.injEq] at hn hn'
        have := h.lt u n hu hn
        omega
      · simp only [upd_ne _ _ e, upd_ne _ _ e'] at hn hn'
        exact h.inj u u' n hu hu' hn hn'
  · intro n h1 h2
    simp only at h2
    by_cases e : n = s.cnt
    · exact ⟨t, ht, by simp [upd_same, Pc.no, e]⟩
    · obtain ⟨u, hu, hn⟩ := h.onto n h1 (by omega)
      refine ⟨u, hu, ?_⟩
      have hne : u ≠ t := by
        rintro rfl
        rw [hpc] at hn
        simp [Pc.no] at hn
      simp only [upd_ne _ _ hne]
      exact hn
  · intro u n hu hl
    by_cases e : u = t
    · subst e; simp [upd_same, Pc.listed] at hl
    · simp only [upd_ne _ _ e] at hl
      exact h.act u n hu hl

omit [DecidableEq K] in
theorem Mix.setKey {a n : Nat} (h : Mix task n0 act s) (ht : n0 ≤ t) (hpc : s.pc t = .setKey a n) :
    Mix task n0 act { s with active := upd s.active n (task t).key, pc := upd s.pc t (.finish a n) } := by
  have hno : ∀ u, (upd s.pc t (.finish a n) u).no = (s.pc u).no := by
    intro u
    by_cases e : u = t
    · subst e; rw [upd_same, hpc]; rfl
    · rw [upd_ne _ _ e]
  have hn0 := (h.lt t n ht (by rw [hpc]; rfl)).1
  refine ⟨h.le, ?_, ?_, ?_, ?_, ?_, ?_⟩
  · intro i hi
    simp only [upd_ne _ _ (show i ≠ n by omega)]
    exact h.oldAct i hi
  · intro u m hu
    simp only [hno]
    exact h.oldNo u m hu
  · intro u m hu
    simp only [hno]
    exact h.lt u m hu
  · intro u u' m hu hu'
    simp only [hno]
    exact h.inj u u' m hu hu'
  · intro m h1 h2
    obtain ⟨u, hu, e⟩ := h.onto m h1 h2
    exact ⟨u, hu, by simpa only [hno] using e⟩
  · intro u m hu hl
    by_cases e : u = t
    · subst e
      simp only [upd_same, Pc.listed, Option.some.injEq] at hl
      subst hl
      exact upd_same _ _ _
    · simp only [upd_ne _ _ e] at hl
      have hs : (s.pc u).no = some m := by
        revert hl
        cases s.pc u <;> simp [Pc.listed, Pc.no]
      have hne : m ≠ n := by
        rintro rfl
        exact e (h.inj u t m hu ht hs (by rw [hpc]; rfl))
      simp only [upd_ne _ _ hne]
      exact h.act u m hu hl

theorem Mix.step (h : Mix task n0 act s) (hm : Mixed task n0 act) {stale : Bool} (hs : step c task s t stale = some s') : Mix task n0 act s' := by
  have same : ∀ {p : Pc} {s' : St K}, s'.cnt = s.cnt → s'.active = s.active → s'.pc = upd s.pc t p → p.no = (s.pc t).no →
      (∀ n, p.listed = some n → (s.pc t).listed = some n) → Mix task n0 act s' :=
    fun h1 h2 h3 h4 h5 => h.goto h1 h2 h3 (.inl h4) fun n _ => h5 n
  have hnext : ∀ i, (s.pc t).no = none → Mix task n0 act (s.next t i) := by
    intro i hn
    unfold St.next
    split
    · exact same rfl rfl rfl (by rw [hn]; rfl) (by simp [Pc.listed])
    · exact same rfl rfl rfl (by rw [hn]; rfl) (by simp [Pc.listed])
  unfold Bht.step at hs
  cases hpc : s.pc t with
  | start =>
    rw [hpc] at hs
    cases hs
    split
    · exact same rfl rfl rfl (by rw [hpc]; rfl) (by simp [Pc.listed])
    · exact same rfl rfl rfl (by rw [hpc]; rfl) (by simp [Pc.listed])
  | scan i l =>
    rw [hpc] at hs hnext
    simp only at hs
    split at hs
    · cases hs
    · cases hs
      generalize (if stale = true then c.hole else s.keys (c.offset i (task t).key + l)) = cur
      split
      · exact same rfl rfl rfl (by rw [hpc]; rfl) (by simp [Pc.listed])
      · split
        · split
          · exact same rfl rfl rfl (by rw [hpc]; rfl) (by simp [Pc.listed])
          · exact hnext i rfl
        · split
          · exact hnext i rfl
          · exact same rfl rfl rfl (by rw [hpc]; rfl) (by simp [Pc.listed])
  | cas i l =>
    rw [hpc] at hs
    simp only at hs
    split at hs
    · cases hs
    · split at hs
      · cases hs
        exact same rfl rfl rfl (by rw [hpc]; rfl) (by simp [Pc.listed])
      · cases hs
        exact same rfl rfl rfl (by rw [hpc]; rfl) (by simp [Pc.listed])
  | count a =>
    rw [hpc] at hs
    rcases Nat.lt_or_ge t n0 with ht | ht
    · simp only [hm.old t ht, resizeTask] at hs
      cases hs
      exact h.goto (p := .setIdx a t) rfl rfl rfl (.inr ⟨ht, rfl⟩) (by simp [Pc.listed])
    · simp only [(hm.new t ht).1] at hs
      cases hs
      exact h.count ht hpc
  | setIdx a n =>
    rw [hpc] at hs
    simp only at hs
    split at hs
    · cases hs
    · cases hs
      exact same rfl rfl rfl (by rw [hpc]; rfl) (by simp [Pc.listed])
  | setKey a n =>
    rw [hpc] at hs
    rcases Nat.lt_or_ge t n0 with ht | ht
    · simp only [hm.old t ht, resizeTask, Bool.false_eq_true, if_false] at hs
      cases hs
      exact h.goto (p := .finish a n) rfl rfl rfl (.inl (by rw [hpc]; rfl)) (by intro m h1; omega)
    · simp only [(hm.new t ht).2, if_true] at hs
      split at hs
      · cases hs
      · cases hs
        exact h.setKey ht hpc
  | finish a n =>
    rw [hpc] at hs
    cases hs
    split
    · exact same rfl rfl rfl (by rw [hpc]; rfl) (by simp [Pc.listed, hpc])
    · exact same rfl rfl rfl (by rw [hpc]; rfl) (by simp [Pc.listed, hpc])
  | present => rw [hpc] at hs; cases hs; exact h
  | failed => rw [hpc] at hs; cases hs; exact h
  | near a n => rw [hpc] at hs; cases hs; exact h
  | ret a n => rw [hpc] at hs; cases hs; exact h

theorem Ran.mix (hm : Mixed task n0 act) (h : Ran c task (c.empty n0 act indices) N s) : Mix task n0 act s :=
  h.induct ⟨Nat.le_refl _, fun _ _ => rfl, by simp [Cfg.empty, Pc.no], by simp [Cfg.empty, Pc.no], by simp [Cfg.empty, Pc.no],
    fun n h1 h2 => absurd h2 (by simp only [Cfg.empty]; omega), by simp [Cfg.empty, Pc.listed]⟩ fun _ _ _ _ _ hi hs => hi.step hm hs

/-- The calls of `resize` ran, then `N` insertions. -/
structure Retry (c : Cfg K) (task : Nat → Task K) (n0 : Nat) (act : Nat → K) (indices : Nat → Nat) (N : Nat) (s1 s : St K) : Prop where
  first : Ran c task (c.empty n0 act indices) n0 s1
  done : Finished s1 n0
  second : ∃ sched : List (Nat × Bool), (∀ x ∈ sched, x.1 < n0 + N) ∧ run c task s1 sched = some s

variable {s1 : St K}

theorem Retry.ran (h : Retry c task n0 act indices N s1 s) : Ran c task (c.empty n0 act indices) (n0 + N) s := by
  obtain ⟨sched1, x1, r1⟩ := h.first
  obtain ⟨sched2, x2, r2⟩ := h.second
  refine ⟨sched1 ++ sched2, ?_, ?_⟩
  · intro x hx
    rcases List.mem_append.1 hx with hx | hx
    · have := x1 x hx; omega
    · exact x2 x hx
  · rw [run_append, r1]; exact r2

/-- No call of `resize` finds its key. -/
theorem Retry.not_present (hB : 2 ≤ c.B) (hm : Mixed task n0 act) (hk : ∀ i < n0, act i ≠ c.hole) (hd : ∀ i < n0, ∀ j < n0, act i = act j → i = j)
    (h : Retry c task n0 act indices N s1 s) {t : Nat} (ht : t < n0) : result s t ≠ some .present := by
  obtain ⟨sched2, x2, r2⟩ := h.second
  rw [bht_result_stable sched2 r2 t (h.done t ht)]
  intro hr
  have hI := h.first.inv hB
  have hp := result_present hr
  have ek : ∀ u < n0, (task u).key = act u := fun u hu => by rw [hm.old u hu]; rfl
  rcases hI.present t hp with e | ⟨a, ha⟩
  · exact hk t ht ((ek t ht).symm.trans e)
  · rw [ek t ht] at ha
    obtain ⟨u, hu⟩ := hI.owner a (ha ▸ hk t ht)
    have huN := h.first.slot_lt hu
    have : act u = act t := (ek u huN).symm.trans ((hI.own u a hu).1.symm.trans ha)
    have := hd u huN t ht this
    subst this
    rw [hp] at hu
    cases hu

omit [DecidableEq K] in
theorem no_slot {p : Pc} {n : Nat} (h : p.no = some n) : ∃ a, p.slot = some a := by
  revert h
  cases p <;> simp [Pc.no, Pc.slot]

omit [DecidableEq K] in
/-- A finished call with a number has listed it. -/
theorem listed_of_no {n : Nat} (hf : result s t ≠ none) (h : (s.pc t).no = some n) : (s.pc t).listed = some n := by
  unfold result at hf
  revert hf h
  cases s.pc t <;> simp [Pc.no, Pc.listed]

/-- A key that `resize` inserted, or was refused, is not inserted again. -/
theorem Retry.cross (hB : 2 ≤ c.B) (hn : c.nb ≠ 0) (hm : Mixed task n0 act) (hk : ∀ i < n0, act i ≠ c.hole) (hd : ∀ i < n0, ∀ j < n0, act i = act j → i = j)
    (h : Retry c task n0 act indices N s1 s) {i t a : Nat} (hi : i < n0) (ht : n0 ≤ t) (ha : (s.pc t).slot = some a) : act i ≠ (task t).key := by
  intro e
  have hr := h.ran
  have hI := hr.inv hB
  obtain ⟨hka, hh⟩ := hI.own t a ha
  have eki : (task i).key = act i := by rw [hm.old i hi]; rfl
  have hfi : result s i ≠ none := by
    obtain ⟨sched2, x2, r2⟩ := h.second
    rw [bht_result_stable sched2 r2 i (h.done i hi)]
    exact h.done i hi
  have hnp := h.not_present hB hm hk hd hi
  have hb := hr.blocked hB i
  have hslot : ∀ b, (s.pc i).slot = some b → False := by
    intro b hb'
    have ho := hI.own i b hb'
    have : b = a := hI.inj hB (ho.1 ▸ ho.2) (by rw [ho.1, hka, eki, e])
    subst this
    have := hI.uniq i t b hb' ha
    omega
  cases hpc : s.pc i with
  | failed =>
    rcases hb.1 hpc with h0 | hcl
    · exact hn h0
    · obtain ⟨_, x, l, hx, hl, ea, _⟩ := hI.placed a (by rw [hka]; exact hh)
      unfold Cfg.threshold at hl
      have := (hcl x l (.inl ⟨hx, by omega⟩)).2
      rw [eki, e, ← hka, ← ea] at this
      exact this rfl
  | near b m => exact hslot b (by rw [hpc]; rfl)
  | ret b m => exact hslot b (by rw [hpc]; rfl)
  | present => exact hnp (by simp [result, hpc])
  | _ => exact hfi (by simp [result, hpc])

/-- The key with number `i`. -/
theorem Retry.numbered (hB : 2 ≤ c.B) (hn : c.nb ≠ 0) (hm : Mixed task n0 act) (hk : ∀ i < n0, act i ≠ c.hole) (hd : ∀ i < n0, ∀ j < n0, act i = act j → i = j)
    (h : Retry c task n0 act indices N s1 s) :
    ∃ g : Nat → K, (∀ i < n0, g i = act i) ∧ (∀ i, n0 ≤ i → i < s.cnt → ∃ t a, n0 ≤ t ∧ t < n0 + N ∧ (s.pc t).no = some i ∧ (s.pc t).slot = some a ∧ g i = (task t).key) ∧
    ∀ i < s.cnt, ∀ j < s.cnt, g i = g j → i = j := by
  have hr := h.ran
  have hI := hr.inv hB
  have hM := hr.mix hm
  have ex : ∀ i, ∃ k : K, (i < n0 → k = act i) ∧ (n0 ≤ i → i < s.cnt → ∃ t a, n0 ≤ t ∧ t < n0 + N ∧ (s.pc t).no = some i ∧ (s.pc t).slot = some a ∧ k = (task t).key) := by
    intro i
    rcases Nat.lt_or_ge i n0 with h1 | h1
    · exact ⟨act i, fun _ => rfl, fun h2 => by omega⟩
    · rcases Nat.lt_or_ge i s.cnt with h2 | h2
      · obtain ⟨t, ht, e⟩ := hM.onto i h1 h2
        obtain ⟨a, ha⟩ := no_slot e
        exact ⟨(task t).key, fun h => by omega, fun _ _ => ⟨t, a, ht, hr.slot_lt ha, e, ha, rfl⟩⟩
      · exact ⟨act i, fun _ => rfl, fun _ h3 => by omega⟩
  obtain ⟨g, hg⟩ := Classical.axiomOfChoice ex
  refine ⟨g, fun i hi => (hg i).1 hi, fun i h1 h2 => (hg i).2 h1 h2, ?_⟩
  have cross : ∀ i j, i < n0 → n0 ≤ j → j < s.cnt → g i ≠ g j := by
    intro i j hi h1 h2 e
    obtain ⟨t, a, ht, _, _, ha, ek⟩ := (hg j).2 h1 h2
    exact h.cross hB hn hm hk hd hi ht ha (by rw [← (hg i).1 hi, e, ek])
  intro i hi j hj e
  rcases Nat.lt_or_ge i n0 with h1 | h1 <;> rcases Nat.lt_or_ge j n0 with h2 | h2
  · rw [(hg i).1 h1, (hg j).1 h2] at e
    exact hd i h1 j h2 e
  · exact absurd e (cross i j h1 h2 hj)
  · exact absurd e.symm (cross j i h2 h1 hi)
  · obtain ⟨t, a, ht, _, hno, ha, ek⟩ := (hg i).2 h1 hi
    obtain ⟨u, b, hu, _, hno', hb, ek'⟩ := (hg j).2 h2 hj
    have o1 := hI.own t a ha
    have o2 := hI.own u b hb
    have : a = b := hI.inj hB (o1.1 ▸ o1.2) (by rw [o1.1, o2.1, ← ek, ← ek', e])
    subst this
    have := hI.uniq t u a ha hb
    subst this
    rw [hno] at hno'
    cases hno'
    rfl

/-- Whether or not a call was refused, the keys listed afterwards are distinct keys of the calls. -/
theorem Retry.listed (hB : 2 ≤ c.B) (hn : c.nb ≠ 0) (hm : Mixed task n0 act) (hk : ∀ i < n0, act i ≠ c.hole) (hd : ∀ i < n0, ∀ j < n0, act i = act j → i = j)
    (h : Retry c task n0 act indices N s1 s) (hf : Finished s (n0 + N)) :
    n0 ≤ s.cnt ∧ (∀ i < n0, s.active i = act i) ∧ (∀ i, n0 ≤ i → i < s.cnt → s.active i ≠ c.hole ∧ ∃ t, n0 ≤ t ∧ t < n0 + N ∧ s.active i = (task t).key) ∧
    ∀ i < s.cnt, ∀ j < s.cnt, s.active i = s.active j → i = j := by
  have hr := h.ran
  have hI := hr.inv hB
  have hM := hr.mix hm
  obtain ⟨g, g1, g2, g3⟩ := h.numbered hB hn hm hk hd
  have hact : ∀ i, n0 ≤ i → i < s.cnt → s.active i ≠ c.hole ∧ ∃ t, n0 ≤ t ∧ t < n0 + N ∧ s.active i = (task t).key ∧ g i = (task t).key := by
    intro i h1 h2
    obtain ⟨t, a, ht, htN, e, ha, ek⟩ := g2 i h1 h2
    have e' := hM.act t i ht (listed_of_no (hf t htN) e)
    exact ⟨by rw [e']; exact (hI.own t a ha).2, t, ht, htN, e', ek⟩
  have eg : ∀ i < s.cnt, s.active i = g i := by
    intro i hi
    rcases Nat.lt_or_ge i n0 with h1 | h1
    · rw [hM.oldAct i h1, g1 i h1]
    · obtain ⟨_, t, _, _, e, e'⟩ := hact i h1 hi
      rw [e, e']
  refine ⟨hM.le, hM.oldAct, fun i h1 h2 => ?_, fun i hi j hj e => g3 i hi j hj (by rw [← eg i hi, ← eg j hj, e])⟩
  obtain ⟨hh, t, ht, htN, e, _⟩ := hact i h1 h2
  exact ⟨hh, t, ht, htN, e⟩

/-- The counter does not exceed the number of different keys. -/
theorem Retry.cnt_le (hB : 2 ≤ c.B) (hn : c.nb ≠ 0) (hm : Mixed task n0 act) (hk : ∀ i < n0, act i ≠ c.hole) (hd : ∀ i < n0, ∀ j < n0, act i = act j → i = j)
    (h : Retry c task n0 act indices N s1 s) {D : List K} (h1 : ∀ i < n0, act i ∈ D) (h2 : ∀ t, n0 ≤ t → t < n0 + N → (task t).key ∈ D) : s.cnt ≤ D.length := by
  obtain ⟨g, g1, g2, g3⟩ := h.numbered hB hn hm hk hd
  have nd : ((List.range s.cnt).map g).Nodup := by
    refine List.Nodup.map_on ?_ List.nodup_range
    intro i hi j hj e
    exact g3 i (List.mem_range.1 hi) j (List.mem_range.1 hj) e
  have sub : (List.range s.cnt).map g ⊆ D := by
    intro k hk'
    obtain ⟨i, hi, rfl⟩ := List.mem_map.1 hk'
    have hi := List.mem_range.1 hi
    rcases Nat.lt_or_ge i n0 with h3 | h3
    · rw [g1 i h3]; exact h1 i h3
    · obtain ⟨t, a, ht, htN, _, _, e⟩ := g2 i h3 hi
      rw [e]; exact h2 t ht htN
  have := (nd.subperm sub).length_le
  simpa using this

/-- If the list of keys is long enough for all keys, no call leaves the arrays. -/
theorem Retry.safe (hB : 2 ≤ c.B) (hn : c.nb ≠ 0) (hm : Mixed task n0 act) (hk : ∀ i < n0, act i ≠ c.hole) (hd : ∀ i < n0, ∀ j < n0, act i = act j → i = j)
    {D : List K} (h1 : ∀ i < n0, act i ∈ D) (h2 : ∀ t, n0 ≤ t → t < n0 + N → (task t).key ∈ D) (hD : D.length ≤ c.size) :
    ∀ (sched : List (Nat × Bool)) (s : St K), (∀ x ∈ sched, x.1 < n0 + N) → Retry c task n0 act indices N s1 s → run c task s sched ≠ none := by
  intro sched
  induction sched with
  | nil => intro s _ _ h; cases h
  | cons x rest ih =>
    obtain ⟨t, stale⟩ := x
    intro s hx h
    have hc := h.cnt_le hB hn hm hk hd h1 h2
    have hM := h.ran.mix hm
    obtain ⟨s', hs⟩ := step_defined (h.ran.inv hB) hB (fun t n hno he => by
      rcases Nat.lt_or_ge t n0 with ht | ht
      · rw [hm.old t ht] at he
        simp [resizeTask] at he
      · have := hM.lt t n ht hno
        omega) t stale
    simp only [run, hs]
    refine ih s' (fun x h => hx x (List.mem_cons_of_mem _ h)) ⟨h.first, h.done, ?_⟩
    obtain ⟨sched2, x2, r2⟩ := h.second
    refine ⟨sched2 ++ [(t, stale)], ?_, ?_⟩
    · intro y hy
      rcases List.mem_append.1 hy with hy | hy
      · exact x2 y hy
      · rw [List.mem_singleton.1 hy]; exact hx _ List.mem_cons_self
    · rw [run_append, r2]
      simp [run, hs]

/-- A table that was not resized: its list of keys always has room. -/
theorem Retry.cnt_slots (hB : 2 ≤ c.B) (hm : Mixed task 0 act) (h : Retry c task 0 act indices N s1 s) : s.cnt ≤ c.size := by
  have hr := h.ran
  have hI := hr.inv hB
  have hM := hr.mix hm
  have ex : ∀ i, ∃ a : Nat, i < s.cnt → ∃ t, (s.pc t).no = some i ∧ (s.pc t).slot = some a := by
    intro i
    by_cases hi : i < s.cnt
    · obtain ⟨t, _, e⟩ := hM.onto i (Nat.zero_le _) hi
      obtain ⟨a, ha⟩ := no_slot e
      exact ⟨a, fun _ => ⟨t, e, ha⟩⟩
    · exact ⟨0, fun h => absurd h hi⟩
  obtain ⟨g, hg⟩ := Classical.axiomOfChoice ex
  have nd : ((List.range s.cnt).map g).Nodup := by
    refine List.Nodup.map_on ?_ List.nodup_range
    intro i hi j hj e
    obtain ⟨t, e1, a1⟩ := hg i (List.mem_range.1 hi)
    obtain ⟨u, e2, a2⟩ := hg j (List.mem_range.1 hj)
    rw [← e] at a2
    have := hI.uniq t u _ a1 a2
    subst this
    rw [e1] at e2
    exact Option.some.inj e2
  have sub : (List.range s.cnt).map g ⊆ List.range c.size := by
    intro a ha
    obtain ⟨i, hi, rfl⟩ := List.mem_map.1 ha
    obtain ⟨t, _, a1⟩ := hg i (List.mem_range.1 hi)
    obtain ⟨o1, o2⟩ := hI.own t _ a1
    obtain ⟨hn, x, l, hx, hl, ea, _⟩ := hI.placed _ (o1 ▸ o2)
    unfold Cfg.threshold at hl
    rw [List.mem_range, ea]
    exact offset_lt hn (by omega) _ _
  have := (nd.subperm sub).length_le
  simpa using this

/-- No call leaves the arrays of such a table. -/
theorem Retry.safe_first (hB : 2 ≤ c.B) (hm : Mixed task 0 act) :
    ∀ (sched : List (Nat × Bool)) (s : St K), (∀ x ∈ sched, x.1 < 0 + N) → Retry c task 0 act indices N s1 s → run c task s sched ≠ none := by
  intro sched
  induction sched with
  | nil => intro s _ _ h; cases h
  | cons x rest ih =>
    obtain ⟨t, stale⟩ := x
    intro s hx h
    have hc := h.cnt_slots hB hm
    have hM := h.ran.mix hm
    obtain ⟨s', hs⟩ := step_defined (h.ran.inv hB) hB (fun t n hno he => by
      have := hM.lt t n (Nat.zero_le _) hno
      omega) t stale
    simp only [run, hs]
    refine ih s' (fun x h => hx x (List.mem_cons_of_mem _ h)) ⟨h.first, h.done, ?_⟩
    obtain ⟨sched2, x2, r2⟩ := h.second
    refine ⟨sched2 ++ [(t, stale)], ?_, ?_⟩
    · intro y hy
      rcases List.mem_append.1 hy with hy | hy
      · exact x2 y hy
      · rw [List.mem_singleton.1 hy]; exact hx _ List.mem_cons_self
    · rw [run_append, r2]
      simp [run, hs]

/-- If no call was refused, every key of a call is listed and `query` gives its position in the list. -/
theorem Retry.query (hB : 2 ≤ c.B) (hm : Mixed task n0 act) (hk : ∀ t < n0 + N, (task t).key ≠ c.hole) (hd : ∀ i < n0, ∀ j < n0, act i = act j → i = j)
    (h : Retry c task n0 act indices N s1 s) (hf : Finished s (n0 + N)) (hok : ∀ t < n0 + N, result s t ≠ some .failure) :
    (∀ t < n0 + N, ∃ i < s.cnt, s.active i = (task t).key) ∧ ∀ k, k ≠ c.hole → ∀ i, Bht.query c s k = some i ↔ i < s.cnt ∧ s.active i = k := by
  have hr := h.ran
  have hI := hr.inv hB
  have hM := hr.mix hm
  have ek : ∀ u < n0, (task u).key = act u := fun u hu => by rw [hm.old u hu]; rfl
  have hk0 : ∀ i < n0, act i ≠ c.hole := fun i hi => ek i hi ▸ hk i (by omega)
  -- a slot that is taken
  have slot : ∀ a, s.keys a ≠ c.hole → ∃ n, s.indices a = n ∧ n < s.cnt ∧ s.active n = s.keys a := by
    intro a ha
    obtain ⟨t, ht⟩ := hI.owner a ha
    have htN := hr.slot_lt ht
    obtain ⟨n, e⟩ := result_won ht (hf t htN) (hok t htN)
    have hkt := (hI.own t a ht).1
    refine ⟨n, hI.idx t a n (by rw [e]; rfl), ?_⟩
    rcases Nat.lt_or_ge t n0 with h1 | h1
    · have := hM.oldNo t n h1 (by rw [e]; rfl)
      subst this
      have := hM.le
      exact ⟨by omega, by rw [hM.oldAct n h1, hkt, ek n h1]⟩
    · exact ⟨(hM.lt t n h1 (by rw [e]; rfl)).2, by rw [hM.act t n h1 (by rw [e]; rfl), hkt]⟩
  have has : ∀ t < n0 + N, ∃ a, s.keys a = (task t).key := by
    intro t ht
    cases hres : result s t with
    | none => exact absurd hres (hf t ht)
    | some r =>
      cases r with
      | failure => exact absurd hres (hok t ht)
      | index n =>
        obtain ⟨a, e⟩ := result_index hres
        exact ⟨a, (hI.own t a (by rw [e]; rfl)).1⟩
      | present => exact (hI.present t (result_present hres)).resolve_left (hk t ht)
  have all : ∀ t < n0 + N, ∃ i < s.cnt, s.active i = (task t).key := by
    intro t ht
    obtain ⟨a, ha⟩ := has t ht
    obtain ⟨n, _, h2, h3⟩ := slot a (ha ▸ hk t ht)
    exact ⟨n, h2, h3.trans ha⟩
  have inj : ∀ i < s.cnt, ∀ j < s.cnt, s.active i = s.active j → i = j := by
    by_cases hn : c.nb = 0
    · intro i hi j hj e
      rcases Nat.lt_or_ge i n0 with h1 | h1 <;> rcases Nat.lt_or_ge j n0 with h2 | h2
      · rw [hM.oldAct i h1, hM.oldAct j h2] at e
        exact hd i h1 j h2 e
      all_goals exfalso
      · obtain ⟨t, _, e⟩ := hM.onto j h2 hj
        obtain ⟨a, ha⟩ := no_slot e
        have ho := hI.own t a ha
        exact (hI.placed a (ho.1 ▸ ho.2)).1 hn
      · obtain ⟨t, _, e⟩ := hM.onto i h1 hi
        obtain ⟨a, ha⟩ := no_slot e
        have ho := hI.own t a ha
        exact (hI.placed a (ho.1 ▸ ho.2)).1 hn
      · obtain ⟨t, _, e⟩ := hM.onto j h2 hj
        obtain ⟨a, ha⟩ := no_slot e
        have ho := hI.own t a ha
        exact (hI.placed a (ho.1 ▸ ho.2)).1 hn
    · exact (h.listed hB hn hm hk0 hd hf).2.2.2
  refine ⟨all, fun k hkh i => ⟨fun hq => ?_, ?_⟩⟩
  · by_cases hex : ∃ a, s.keys a = k
    · obtain ⟨a, rfl⟩ := hex
      rw [query_of_slot hI hB hkh] at hq
      obtain ⟨n, h1, h2, h3⟩ := slot a hkh
      rw [h1] at hq
      cases hq
      exact ⟨h2, h3⟩
    · rw [query_absent fun a e => hex ⟨a, e⟩] at hq
      cases hq
  · rintro ⟨hi, rfl⟩
    have : ∃ t < n0 + N, (task t).key = s.active i := by
      rcases Nat.lt_or_ge i n0 with h1 | h1
      · exact ⟨i, by omega, by rw [ek i h1, hM.oldAct i h1]⟩
      · obtain ⟨t, ht, e⟩ := hM.onto i h1 hi
        obtain ⟨a, ha⟩ := no_slot e
        have htN := hr.slot_lt ha
        exact ⟨t, htN, (hM.act t i ht (listed_of_no (hf t htN) e)).symm⟩
    obtain ⟨t, ht, e⟩ := this
    obtain ⟨a, ha⟩ := has t ht
    rw [e] at ha
    rw [← ha] at hkh ⊢
    rw [query_of_slot hI hB hkh]
    obtain ⟨n, h1, h2, h3⟩ := slot a hkh
    rw [h1, inj n h2 i hi (h3.trans ha)]

end Verif.Bht
